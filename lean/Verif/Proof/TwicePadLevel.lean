import Verif.Proof.TwicePadRead

/-!
# Reading a doubly run-encoded level-wise trie when zeros can be read after the end of a vector
-/

namespace CBT

theorem enum_inj {k : Nat} {P Q : Nat → Bool} (h : enum k P 0 = enum k Q 0) : ∀ x < 2 ^ k, P x = Q x := by
  intro x hx
  have key : ∀ P' Q' : Nat → Bool, enum k P' 0 = enum k Q' 0 → P' x = true → Q' x = true := by
    intro P' Q' h hP
    have : x ∈ enum k P' 0 := mem_enum.2 ⟨x, hx, hP, by simp⟩
    rw [h] at this
    obtain ⟨y, _, hQ, e⟩ := mem_enum.1 this
    rw [Nat.zero_add] at e
    rw [e]; exact hQ
  cases hP : P x with
  | true => exact (key P Q h hP).symm
  | false =>
    cases hQ : Q x with
    | false => rfl
    | true => rw [key Q P h.symm hQ] at hP; cases hP

theorem length_leaves_le : (d : Nat) → (f : List (Tr d)) → (leaves d f).length ≤ f.length * 2 ^ d
  | 0, f => by simp [leaves]
  | d + 1, f => by
    rw [leaves, show f.length * 2 ^ (d + 1) = 2 * f.length * 2 ^ d by rw [Nat.pow_succ]; ring]
    exact (length_leaves_le d (kids f)).trans (Nat.mul_le_mul_right _ (length_kids_le f))

theorem nz_levels_le {pad : Nat} : (d : Nat) → (f : List (Tr d)) → (L : List BV) → L.length = d →
    (∀ v ∈ L, 2 ∣ v.length) →
    (∀ (i : Nat) B v, (nodeLevels d f)[i]? = some B → L[i]? = some v → ∃ rest, v ++ List.replicate pad false = B ++ rest) →
    (nodeLevelsS d f).flatten.length ≤ L.flatten.length
  | 0, _, _, _, _, _ => by simp [nodeLevelsS]
  | d + 1, f, [], h, _, _ => by simp at h
  | d + 1, f, v :: L, h, he, hp => by
    obtain ⟨rest, h0⟩ := hp 0 _ _ rfl rfl
    have ih := nz_levels_le d (kids f) L (by simpa using h) (fun w hw => he w (List.mem_cons_of_mem _ hw))
      fun i B w hB hw => hp (i + 1) B w hB hw
    have h1 := congrArg nzPairs h0
    rw [nzPairs_append _ _ (he v (by simp)), nzPairs_zeros, nzPairs_append _ _ (by rw [length_bitsOf]; exact ⟨_, rfl⟩)] at h1
    have h2 := nzPairs_bitsOf f
    have h3 := nzPairs_le v
    rw [nodeLevelsS, List.flatten_cons, List.flatten_cons, List.length_append, List.length_append]
    omega

theorem level_child {t : LevelTrie} {il : Bool} {pad ℓ id c : Nat} {v : BV} (hℓ : ℓ + 1 < t.height) (hv : t.bTrie[ℓ]? = some v)
    (hs : v.length < 2 ^ 64) :
    ((v ++ List.replicate pad false)[2 * id]? = some true → (t.nav il pad).getLeftChild id ℓ = .ok c →
      c = ((v ++ List.replicate pad false).take (2 * id)).count true) ∧
    ((v ++ List.replicate pad false)[2 * id + 1]? = some true → (t.nav il pad).getRightChild id ℓ = .ok c →
      c = ((v ++ List.replicate pad false).take (2 * id + 1)).count true) := by
  have hg : vGet t.bTrie ℓ = .ok v := by rw [vGet, hv]
  refine ⟨fun h0 hc => ?_, fun h0 hc => ?_⟩
  · have hlt := virtual_true h0
    rw [List.getElem?_append_left hlt] at h0
    rw [List.take_append_of_le_length (by omega)]
    have hle : (v.take (2 * id)).count true ≤ v.length := List.count_le_length.trans (by simp)
    cases il with
    | false =>
      simp only [LevelTrie.nav, Bool.false_eq_true, if_false, LevelTrie.getLeftChild] at hc
      rw [if_neg (by omega), hg] at hc
      exact rank1_eq hc
    | true =>
      simp only [LevelTrie.nav, if_true, LevelTrie.getLeftChildIl] at hc
      rw [if_neg (by omega), hg] at hc
      obtain ⟨k, hk, hc⟩ := bind_ok (show (rank1 v _ >>= fun k => .ok ((k + 2 ^ 64 - 1) % 2 ^ 64)) = .ok c from hc)
      rw [rank1_eq hk, take_succ_count h0, wrap_pred (by omega)] at hc
      simpa using hc.symm
  · have hlt := virtual_true h0
    rw [List.getElem?_append_left hlt] at h0
    rw [List.take_append_of_le_length (by omega)]
    have hle : (v.take (2 * id + 1)).count true ≤ v.length := List.count_le_length.trans (by simp)
    cases il with
    | false =>
      simp only [LevelTrie.nav, Bool.false_eq_true, if_false, LevelTrie.getRightChild] at hc
      rw [if_neg (by omega), hg] at hc
      exact rank1_eq hc
    | true =>
      simp only [LevelTrie.nav, if_true, LevelTrie.getRightChildIl] at hc
      rw [if_neg (by omega), hg] at hc
      obtain ⟨k, hk, hc⟩ := bind_ok (show (rank1 v _ >>= fun k => .ok ((k + 2 ^ 64 - 1) % 2 ^ 64)) = .ok c from hc)
      rw [rank1_eq hk, take_succ_count h0, wrap_pred (by omega)] at hc
      simpa using hc.symm

theorem level_node {t : LevelTrie} {il : Bool} {pad ℓ id v : Nat} (h : (t.nav il pad).getNode id ℓ = .ok v) :
    ∃ lv b0 b1, t.bTrie[ℓ]? = some lv ∧ v = node2 b0 b1 ∧ (lv ++ List.replicate pad false)[2 * id]? = some b0 ∧
      (lv ++ List.replicate pad false)[2 * id + 1]? = some b1 := by
  simp only [LevelTrie.nav, LevelTrie.getNode] at h
  obtain ⟨lv, hlv, h⟩ := bind_ok h
  have hlv' : t.bTrie[ℓ]? = some lv := by
    unfold vGet at hlv
    cases hc : t.bTrie[ℓ]? with
    | none => rw [hc] at hlv; cases hlv
    | some a => rw [hc] at hlv; simpa using hlv
  obtain ⟨b0, b1, h0, h1, h⟩ := bind_ok2 h
  exact ⟨lv, b0, b1, hlv', by simpa using h.symm, bvGet_padded h0, bvGet_padded h1⟩

theorem count_succ_true {v : BV} {i : Nat} (h : v[i]? = some true) : (v.take (i + 1)).count true = (v.take i).count true + 1 := by
  rw [count_step h]; rfl

theorem level_adjacent {t : LevelTrie} {il : Bool} {pad D : Nat} (hh : t.height = D + 1) (hs : ∀ v ∈ t.bTrie, v.length < 2 ^ 64) :
    Adjacent (t.nav il pad) D := by
  refine ⟨fun id ℓ v h => ?_, fun id ℓ c c' hℓ h hc hc' => ?_⟩
  · obtain ⟨lv, b0, b1, -, e, -⟩ := level_node h
    exact ⟨b0, b1, e⟩
  · obtain ⟨lv, b0, b1, hlv, e, h0, h1⟩ := level_node h
    obtain ⟨rfl, rfl⟩ := node2_inj e
    have hl := hs lv (List.mem_of_getElem? hlv)
    rw [(level_child (by omega) hlv hl).1 h0 hc, (level_child (by omega) hlv hl).2 h1 hc', count_succ_true h0]

/-- What a level-wise trie that was run-encoded twice needs to decode correctly, if there are leaves. -/
theorem level_late {d pad hw : Nat} {il : Bool} {T : Tr d} (hd : d ≤ 62) (hnz : NZ 1 d T) (ht : Tight 1 d T) (out : List Nat) :
    runsRecDecode ((levelSolid d T hw).nav il pad) (d + 1) out 0 0 0 = .ok (out ++ enum (d + 1) (hasR 1 d T) 0) ↔
      LateAll pad d [T] := by
  obtain ⟨t, htt⟩ : ∃ t, t = levelSolid d T hw := ⟨_, rfl⟩
  have hbt : t.bTrie = nodeLevelsS d [T] ++ [(leaves d [T]).flatMap leafBits] := by rw [htt, levelSolid]
  have hh : t.height = d + 1 := by simp [hbt, LevelTrie.height, length_nodeLevelsS]
  have hp : 2 ^ d ≤ 2 ^ 62 := Nat.pow_le_pow_right (by omega) hd
  have hlv : ∀ {ℓ v}, ℓ < d → (t.bTrie[ℓ]? = some v ↔ (nodeLevelsS d [T])[ℓ]? = some v) := by
    intro ℓ v hℓ
    rw [hbt, List.getElem?_append_left (by rw [length_nodeLevelsS]; exact hℓ)]
  have hsm : ∀ v ∈ t.bTrie, v.length < 2 ^ 64 := by
    intro v hv
    rw [hbt] at hv
    rcases List.mem_append.1 hv with hv | hv
    · have := length_nodeLevelsS_le _ _ v hv
      simp only [List.length_singleton] at this
      omega
    · rw [List.mem_singleton.1 hv, length_leafBits]
      have := length_leaves_le d [T]
      simp only [List.length_singleton] at this
      omega
  rw [← htt]
  constructor
  · intro h
    obtain ⟨T', hnz', hrep, hout⟩ := decode_tree (level_adjacent hh hsm) hh (by omega) d 0 out 0 0 _ (by omega) (dvd_zero _) h
    have heq := enum_inj (List.append_cancel_left hout)
    have hpre := prefix_level (V := fun ℓ => (t.bTrie[ℓ]?).getD [] ++ List.replicate pad false) (D := d) ?_ ?_ ?_ d 0 [T'] (by omega)
      (fun j s hs => by
        have : j = 0 := by
          by_contra hc
          rw [List.getElem?_eq_none (by simp; omega)] at hs
          cases hs
        subst this
        obtain rfl : T' = s := by simpa using hs
        exact hrep)
    · have hpre' : ∀ (i : Nat) B v, (nodeLevels d [T'])[i]? = some B → (nodeLevelsS d [T])[i]? = some v →
          ∃ rest, v ++ List.replicate pad false = B ++ rest := by
        intro i B v hB hv
        have hi : i < d := by
          have := (List.getElem?_eq_some_iff.1 hv).1
          rwa [length_nodeLevelsS] at this
        obtain ⟨rest, hr⟩ := hpre i B hB
        rw [Nat.zero_add, (hlv hi).2 hv] at hr
        exact ⟨rest, hr⟩
      have hle := nz_levels_le d [T'] _ (length_nodeLevelsS d [T]) (fun v hv => ⟨_, (solid_nodeLevelsS d [T] v hv).even⟩) hpre'
      rw [solidN_forest, solidN_forest] at hle
      simp only [List.map_cons, List.map_nil, List.sum_cons, List.sum_nil] at hle
      obtain rfl := (tree_unique hnz hnz' ht heq).2 (by omega)
      exact lateAll_of_levels d [T] hpre'
    · intro id ℓ b0 b1 hℓ hn
      obtain ⟨lv, c0, c1, hlv, e, h0, h1⟩ := level_node hn
      obtain ⟨rfl, rfl⟩ := node2_inj e
      simp only [hlv, Option.getD_some]
      exact ⟨h0, h1⟩
    · intro id ℓ c hℓ h0 hc
      obtain ⟨lv, hl⟩ : ∃ lv, t.bTrie[ℓ]? = some lv := ⟨_, List.getElem?_eq_getElem (by rw [hbt]; simp [length_nodeLevelsS]; omega)⟩
      simp only [hl, Option.getD_some] at h0 ⊢
      exact (level_child (by omega) hl (hsm lv (List.mem_of_getElem? hl))).1 h0 hc
    · intro id ℓ c hℓ h0 hc
      obtain ⟨lv, hl⟩ : ∃ lv, t.bTrie[ℓ]? = some lv := ⟨_, List.getElem?_eq_getElem (by rw [hbt]; simp [length_nodeLevelsS]; omega)⟩
      simp only [hl, Option.getD_some] at h0 ⊢
      exact (level_child (by omega) hl (hsm lv (List.mem_of_getElem? hl))).2 h0 hc
  · intro hL
    have hrep : Rep (t.nav il pad) (leafF (t.nav il pad)) d 0 T 0 := by
      refine rep_level (levels := nodeLevels d [T]) (D := d) ?_ ?_ ?_ d 0 [T] (by omega) ?_ ?_ 0 T rfl
      · intro id ℓ v b0 b1 hℓ hv h0 h1
        obtain ⟨B, z, hB, hz, rfl⟩ := hL.levels ℓ v hv
        show t.getNode pad id ℓ = _
        rw [LevelTrie.getNode, vGet, (hlv hℓ).2 hB]
        simp only [R_bind_ok, bvGet_virtual hz h0, bvGet_virtual hz h1]
      · intro id ℓ v hℓ hv h0
        obtain ⟨B, z, hB, hz, rfl⟩ := hL.levels ℓ v hv
        have hlt := virtual_true h0
        have hB' := (hlv hℓ).2 hB
        have hs := hsm B (List.mem_of_getElem? hB')
        rw [List.getElem?_append_left hlt] at h0
        rw [List.take_append_of_le_length (by omega)]
        have hc : (B.take (2 * id)).count true ≤ B.length := List.count_le_length.trans (by simp)
        cases il with
        | false =>
          show t.getLeftChild id ℓ = _
          rw [LevelTrie.getLeftChild, if_neg (by omega), vGet, hB']
          exact rank1_ok (by omega)
        | true =>
          show t.getLeftChildIl id ℓ = _
          rw [LevelTrie.getLeftChildIl, if_neg (by omega), vGet, hB']
          simp only [R_bind_ok, rank1_ok (show 2 * id + 1 ≤ B.length by omega), take_succ_count h0]
          rw [wrap_pred (by omega)]
      · intro id ℓ v hℓ hv h0
        obtain ⟨B, z, hB, hz, rfl⟩ := hL.levels ℓ v hv
        have hlt := virtual_true h0
        have hB' := (hlv hℓ).2 hB
        have hs := hsm B (List.mem_of_getElem? hB')
        rw [List.getElem?_append_left hlt] at h0
        rw [List.take_append_of_le_length (by omega)]
        have hc : (B.take (2 * id + 1)).count true ≤ B.length := List.count_le_length.trans (by simp)
        cases il with
        | false =>
          show t.getRightChild id ℓ = _
          rw [LevelTrie.getRightChild, if_neg (by omega), vGet, hB']
          exact rank1_ok (by omega)
        | true =>
          show t.getRightChildIl id ℓ = _
          rw [LevelTrie.getRightChildIl, if_neg (by omega), vGet, hB']
          simp only [R_bind_ok, rank1_ok (show 2 * id + 1 + 1 ≤ B.length by omega), take_succ_count h0]
          rw [wrap_pred (by omega)]
      · rw [List.drop_zero, List.take_of_length_le (by rw [length_nodeLevels])]
      · intro i w hw
        obtain ⟨g0, g1⟩ := getElem?_leafBits _ _ _ hw
        have hv : t.bTrie[d]? = some ((leaves d [T]).flatMap leafBits) := by
          rw [hbt, List.getElem?_append_right (by rw [length_nodeLevelsS]), length_nodeLevelsS]; simp
        refine ⟨NZ_leaves d [T] (by simpa using hnz) w (List.mem_of_getElem? hw), ?_, ⟨0, ?_⟩, ⟨0, ?_⟩⟩
        · show t.getNode pad i d = _
          rw [LevelTrie.getNode, vGet, hv]
          simp only [R_bind_ok, bvGet_some g0, bvGet_some g1]
        · cases il
          · show t.getLeftChild i d = _
            rw [LevelTrie.getLeftChild, if_pos (by omega)]
          · show t.getLeftChildIl i d = _
            rw [LevelTrie.getLeftChildIl, if_pos (by omega)]
        · cases il
          · show t.getRightChild i d = _
            rw [LevelTrie.getRightChild, if_pos (by omega)]
          · show t.getRightChildIl i d = _
            rw [LevelTrie.getRightChildIl, if_pos (by omega)]
    rw [runsRecDecode_rep (by change t.height < 64; omega) d d 0 T 0 0 out hrep (by change t.height = _; omega) (dvd_zero _) (Stops.refl _ _)]

/-- Without leaves only the whole universe survives. -/
theorem level_none {d pad : Nat} {il : Bool} {T : Tr d} (hd : d ≤ 62) (hd1 : 1 ≤ d) (hnz : NZ 1 d T) (ht : Tight 1 d T)
    {Ls : List BV} {k : Nat} (hL : levelsS d [T] = Ls ++ List.replicate k []) (hne : ∀ B ∈ Ls, B ≠ []) (hk : 1 ≤ k)
    (hlen : Ls.length + k = d + 1) (hw : Nat) (out : List Nat) :
    runsRecDecode ((levelSolid d T hw).nav il pad) (Ls.length - 1 + 1) out 0 0 0 = .ok (out ++ enum (d + 1) (hasR 1 d T) 0) ↔
      (∀ x < 2 ^ (d + 1), hasR 1 d T x = true) ∧ 2 ≤ pad := by
  obtain ⟨e, rfl⟩ : ∃ e, d = e + 1 := ⟨d - 1, by omega⟩
  obtain ⟨t, htt⟩ : ∃ t, t = levelSolid (e + 1) T hw := ⟨_, rfl⟩
  have hbt : t.bTrie = nodeLevelsS (e + 1) [T] ++ [(leaves (e + 1) [T]).flatMap leafBits] := by rw [htt, levelSolid]
  have hh : t.height = e + 1 + 1 := by simp [hbt, LevelTrie.height, length_nodeLevelsS]
  rw [← htt]
  cases hb : T.bare with
  | true =>
    have hs : solidBits [T] = [] := solid_nil_iff.2 (by simpa using hb)
    have hLs : Ls = [] := by
      cases Ls with
      | nil => rfl
      | cons B Ls =>
        rw [levelsS, hs, List.cons_append, List.cons.injEq] at hL
        exact (hne B (by simp) hL.1.symm).elim
    subst hLs
    have h0 : t.bTrie[0]? = some [] := by rw [hbt, nodeLevelsS, hs]; rfl
    constructor
    · intro h
      refine ⟨fun x _ => hasR_bare hb, ?_⟩
      obtain ⟨v, hv⟩ := decode_node h
      obtain ⟨lv, b0, b1, hlv, -, -, h1⟩ := level_node hv
      rw [h0] at hlv
      obtain rfl := Option.some.inj hlv
      have := (List.getElem?_eq_some_iff.1 h1).1
      simp at this
      omega
    · rintro ⟨-, hp⟩
      refine runsRecDecode_bare (k := e + 1 + 1) ?_ (by change t.height - 0 = _; omega) (by omega) (dvd_zero _) (fun x _ => hasR_bare hb)
      show t.getNode pad 0 0 = _
      rw [LevelTrie.getNode, vGet, h0]
      simp only [R_bind_ok]
      rw [bvGet_virtual (z := pad) (b := false) (Nat.le_refl _) (by rw [List.nil_append, List.getElem?_replicate, if_pos (by omega)]),
        bvGet_virtual (z := pad) (b := false) (Nat.le_refl _) (by rw [List.nil_append, List.getElem?_replicate, if_pos (by omega)])]
      rfl
  | false =>
    constructor
    · intro h
      have hs : solidBits [T] ≠ [] := fun h => by
        have := solid_nil_iff.1 h T (by simp)
        rw [hb] at this
        cases this
      have hLs : Ls ≠ [] := by
        rintro rfl
        rw [List.nil_append, levelsS] at hL
        obtain ⟨k', rfl⟩ : ∃ k', k = k' + 1 := ⟨k - 1, by omega⟩
        rw [List.replicate_succ, List.cons.injEq] at hL
        exact hs hL.1
      have hp := List.length_pos_iff.2 hLs
      have hht : (t.nav il pad).height = e + 1 + 1 := hh
      obtain ⟨T', hnz', hcut, hout⟩ := decode_cut (n := t.nav il pad) (fun id ℓ v h => by
          obtain ⟨lv, b0, b1, -, e, -⟩ := level_node h
          exact ⟨b0, b1, e⟩) (by omega) (Ls.length - 1 + 1) (e + 1) 0 out 0 0 _ (by omega) (by omega) (dvd_zero _) h
      have heq := enum_inj (List.append_cancel_left hout)
      have hext := ext_of_hasR _ T T' hnz hnz' ht heq
      refine (cut_misses (Ls.length - 1) (e + 1) [T] (fun s hs => ?_) (Ls[Ls.length - 1]'(by omega)) ?_ (hne _ (List.getElem_mem _)) ?_).elim
      · obtain rfl := List.mem_singleton.1 hs
        exact ⟨T', hext, hcut⟩
      · rw [hL, List.getElem?_append_left (by omega), List.getElem?_eq_getElem (by omega)]
      · rw [hL, List.getElem?_append_right (by omega), List.getElem?_replicate, if_pos (by omega)]
    · rintro ⟨h, -⟩
      obtain ⟨x, hx, hf⟩ := ht.1 hb
      rw [h x hx] at hf
      cases hf

end CBT
