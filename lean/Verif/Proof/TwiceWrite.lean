import Verif.Proof.RunsWrite

/-!
# Run encoding a trie that is run-encoded already

The second `writeCompressTrie` collapses nothing, and leaves out the nodes without children that the first one wrote.
-/

namespace CBT

/-- No two leaves with the same parent are both full: what pruning leaves. -/
def Thin (b : Nat) : (d : Nat) → Tr d → Prop
  | 0, _ => True
  | d + 1, t => (∀ s s', t.l = some s → t.r = some s' → (decide (d = 0) && full b d s && full b d s') = false) ∧
      (∀ s, t.l = some s → Thin b d s) ∧ (∀ s, t.r = some s → Thin b d s)

theorem thin_prune {b : Nat} : (d : Nat) → (T : Tr d) → Thin b d (prune b d T)
  | 0, _ => trivial
  | d + 1, T => by
    cases hf : full b (d + 1) T with
    | true =>
      rw [prune_full hf]
      exact ⟨fun s s' h => by simp at h, fun s h => by simp at h, fun s h => by simp at h⟩
    | false =>
      rw [prune_not_full hf]
      refine ⟨fun s s' h h' => ?_, fun s h => ?_, fun s h => ?_⟩
      · rw [Tr.l_mk] at h
        rw [Tr.r_mk] at h'
        obtain ⟨a, ha, rfl⟩ := Option.map_eq_some_iff.1 h
        obtain ⟨a', ha', rfl⟩ := Option.map_eq_some_iff.1 h'
        cases d with
        | succ d => simp
        | zero =>
          rw [full, ha, ha'] at hf
          simpa [prune] using hf
      · rw [Tr.l_mk] at h
        obtain ⟨a, _, rfl⟩ := Option.map_eq_some_iff.1 h
        exact thin_prune d a
      · rw [Tr.r_mk] at h
        obtain ⟨a, _, rfl⟩ := Option.map_eq_some_iff.1 h
        exact thin_prune d a

/-- The bits of the nodes that have a child. -/
def solidBits {d : Nat} (f : List (Tr (d + 1))) : BV := bitsOf (f.filter fun t => !t.bare)

theorem solidBits_append {d : Nat} (f g : List (Tr (d + 1))) : solidBits (f ++ g) = solidBits f ++ solidBits g := by
  simp [solidBits, bitsOf_append]

/-- The levels without the nodes that have no child, leaf bits last. -/
def levelsS : (d : Nat) → List (Tr d) → List BV
  | 0, f => [(f.map Tr.word).flatMap leafBits]
  | d + 1, f => solidBits f :: levelsS d (kids f)

/-- Those above the leaves. -/
def nodeLevelsS : (d : Nat) → List (Tr d) → List BV
  | 0, _ => []
  | d + 1, f => solidBits f :: nodeLevelsS d (kids f)

theorem length_nodeLevelsS : (d : Nat) → (f : List (Tr d)) → (nodeLevelsS d f).length = d
  | 0, _ => rfl
  | d + 1, f => by simp [nodeLevelsS, length_nodeLevelsS d]

theorem levelsS_eq : (d : Nat) → (f : List (Tr d)) → levelsS d f = nodeLevelsS d f ++ [(leaves d f).flatMap leafBits]
  | 0, f => rfl
  | d + 1, f => by simp [levelsS, nodeLevelsS, leaves, levelsS_eq d (kids f)]

theorem length_levelsS (d : Nat) (f : List (Tr d)) : (levelsS d f).length = d + 1 := by
  simp [levelsS_eq, length_nodeLevelsS]

theorem levelsS_append : (d : Nat) → (f g : List (Tr d)) → levelsS d (f ++ g) = cat (levelsS d f) (levelsS d g)
  | 0, f, g => by simp [levelsS, cat]
  | d + 1, f, g => by
    rw [levelsS, solidBits_append, kids_append, levelsS_append d]; rfl

theorem nodeLevelsS_append : (d : Nat) → (f g : List (Tr d)) → nodeLevelsS d (f ++ g) = cat (nodeLevelsS d f) (nodeLevelsS d g)
  | 0, f, g => by simp [nodeLevelsS, cat]
  | d + 1, f, g => by rw [nodeLevelsS, solidBits_append, kids_append, nodeLevelsS_append d]; rfl

theorem levelsS_nil : (d : Nat) → levelsS d [] = List.replicate (d + 1) []
  | 0 => rfl
  | d + 1 => by rw [levelsS, kids_nil, levelsS_nil d]; rfl

theorem nodeLevelsS_nil : (d : Nat) → nodeLevelsS d [] = List.replicate d []
  | 0 => rfl
  | d + 1 => by rw [nodeLevelsS, kids_nil, nodeLevelsS_nil d]; rfl

theorem writeCompress_thin {n : Nav} : ∀ (d level : Nat) (T : Tr d) (id : Nat) (A : List (List Nat)) (P : List Nat) (Bs : List BV),
    Rep n (leafF n) d level T id → Thin 1 d T → A.length = level → P.length = level → Bs.length = d + 1 →
    writeCompress n d (stAt A P Bs) level id =
      .ok (stAt A P (cat Bs (levelsS d [T])), decide (d = 0) && full 1 d T) := by
  intro d
  induction d with
  | zero =>
    intro level T id A P Bs hr hne hA hP hB
    obtain ⟨B, rfl⟩ : ∃ B, Bs = [B] := by
      match Bs, hB with
      | [B], _ => exact ⟨B, rfl⟩
    obtain ⟨hw, hn, _, _⟩ := hr
    have hw' : T.word = 1 ∨ T.word = 2 ∨ T.word = 3 := by omega
    rw [writeCompress, hn, stAt_cons]
    simp only [full]
    rcases hw' with h | h | h
    · rw [h]
      have : Nat.testBit 1 1 = false := rfl
      simp [node2, push_at hA hP, inc_at hP, stAt, cat, levelsS, h, leafBits, onesOf_append, onesFrom, this]
    · rw [h]
      have : Nat.testBit 2 1 = true := rfl
      simp [node2, push_at hA hP, inc_at hP, stAt, cat, levelsS, h, leafBits, onesOf_append, onesFrom, this]
    · rw [h]
      have : Nat.testBit 3 1 = true := rfl
      simp [node2, push_at hA hP, inc_at hP, stAt, cat, levelsS, h, leafBits, onesOf_append, onesFrom, this]
  | succ d ih =>
    intro level T id A P Bs hr hne hA hP hB
    obtain ⟨B, Bs, rfl⟩ : ∃ B Bs', Bs = B :: Bs' := by
      match Bs, hB with
      | B :: Bs, _ => exact ⟨B, Bs, rfl⟩
    have hB' : Bs.length = d + 1 := by simpa using hB
    obtain ⟨hn, hl, hr⟩ := hr
    rw [writeCompress, hn]
    cases h1 : T.l with
    | none =>
      cases h2 : T.r with
      | none =>
        have hb : T.bare = true := by simp [Tr.bare, h1, h2]
        have e : levelsS (d + 1) [T] = [] :: List.replicate (d + 1) [] := by
          simp [levelsS, solidBits, bitsOf, hb, kids, kidsOf, h1, h2, levelsS_nil]
        rw [e, cat_cons, cat_nils _ _ hB']
        simp [node2_ff]
      | some s' =>
        have hb : T.bare = false := by simp [Tr.bare, h1, h2]
        obtain ⟨c', hc', hR'⟩ := hr s' h2
        have e := ih (level + 1) s' c' (A ++ [onesOf B ++ [B.length + 1]]) (P ++ [B.length + 1]) Bs hR' (hne.2.2 s' h2)
          (by simp [hA]) (by simp [hP]) hB'
        simp only [Option.isSome, node2_ft, R_bind_ok, hc', stAt_cons, inc_at hP, push_at hA hP, Nat.add_zero, Nat.reduceEqDiff, if_false, if_true]
        rw [stAt_shift, e]
        simp only [← stAt_shift, inc_at hP, R_bind_ok]
        simp [levelsS, solidBits, hb, h1, h2, bitsOf, nodeBits, kids, kidsOf, cat_cons, stAt_cons, onesOf_append, onesFrom]
    | some s =>
      have hb : T.bare = false := by simp [Tr.bare, h1]
      obtain ⟨c, hc, hR, hRs⟩ := hl s h1
      cases h2 : T.r with
      | none =>
        have e := ih (level + 1) s c (A ++ [onesOf B ++ [B.length]]) (P ++ [B.length]) Bs hR (hne.2.1 s h1)
          (by simp [hA]) (by simp [hP]) hB'
        simp only [Option.isSome, node2_tf, R_bind_ok, hc, stAt_cons, push_at hA hP, Nat.add_zero, Nat.reduceEqDiff, if_false, if_true]
        rw [stAt_shift, e]
        simp only [← stAt_shift, inc_at hP, R_bind_ok]
        simp [levelsS, solidBits, hb, h1, h2, bitsOf, nodeBits, kids, kidsOf, cat_cons, stAt_cons, onesOf_append, onesFrom]
      | some s' =>
        have hR' := hRs s' h2
        have e := ih (level + 1) s c (A ++ [onesOf B]) (P ++ [B.length]) Bs hR (hne.2.1 s h1)
          (by simp [hA]) (by simp [hP]) hB'
        have hlen : (cat Bs (levelsS d [s])).length = d + 1 := by
          rw [length_cat (by rw [hB', length_levelsS])]; exact hB'
        have e' := ih (level + 1) s' (c + 1) (A ++ [onesOf B]) (P ++ [B.length]) (cat Bs (levelsS d [s])) hR'
          (hne.2.2 s' h2) (by simp [hA]) (by simp [hP]) hlen
        have hff : ((decide (d = 0) && full 1 d s) && (decide (d = 0) && full 1 d s')) = false := by
          have := hne.1 s s' h1 h2
          revert this
          cases decide (d = 0) <;> simp
        simp only [Option.isSome, node2_tt, R_bind_ok, hc, stAt_cons, stAt_shift, e, e', if_true, hff]
        simp only [Bool.false_eq_true, if_false, ← stAt_shift, push_at hA hP, inc_at hP, R_bind_ok]
        simp [levelsS, solidBits, hb, h1, h2, bitsOf, nodeBits, kids, kidsOf, cat_cons, stAt_cons, onesOf_append, onesFrom, cat_assoc, ← levelsS_append]

theorem writeCompress_thin_start {n : Nav} {d : Nat} {T : Tr d} (hr : Rep n (leafF n) d 0 T 0) (hne : Thin 1 d T) :
    writeCompress n d { ones := List.replicate (d + 1) [], pos := List.replicate (d + 1) 0 } 0 0 =
      .ok ({ ones := (levelsS d [T]).map onesOf, pos := (levelsS d [T]).map List.length }, decide (d = 0) && full 1 d T) := by
  rw [startSt, writeCompress_thin d 0 T 0 [] [] _ hr hne rfl rfl (by simp), nils_cat _ _ (length_levelsS d _)]
  rfl

/-- The non-empty levels come first, and there are leaves exactly if no level is empty. -/
theorem levelsS_cases : (d : Nat) → (f : List (Tr d)) → ∃ Ls k, levelsS d f = Ls ++ List.replicate k [] ∧ (∀ B ∈ Ls, B ≠ []) ∧
    (leaves d f = [] → 1 ≤ k) ∧ (leaves d f ≠ [] → k = 0)
  | 0, f => by
    cases f with
    | nil => exact ⟨[], 1, rfl, by simp, by simp, by simp [leaves]⟩
    | cons a f => exact ⟨levelsS 0 (a :: f), 0, by simp, by simp [levelsS, leafBits], by simp [leaves], by simp⟩
  | d + 1, f => by
    by_cases hk : kids f = []
    · have hb := kids_nil_bare hk
      have hs : solidBits f = [] := by
        rw [solidBits, List.filter_eq_nil_iff.2 (by intro t ht; simp [hb t ht])]; rfl
      refine ⟨[], d + 2, ?_, by simp, by omega, by simp [leaves, hk, leaves_nil]⟩
      rw [levelsS, hs, hk, levelsS_nil]; rfl
    · obtain ⟨Ls, k, h1, h2, h3, h4⟩ := levelsS_cases d (kids f)
      have hs : solidBits f ≠ [] := by
        intro hs
        apply hk
        refine List.flatMap_eq_nil_iff.2 fun t ht => ?_
        by_contra hc
        have hb : t.bare = false := by
          by_contra hb
          obtain ⟨e1, e2⟩ := Tr.bare_eq (by simpa using hb : t.bare = true)
          exact hc (by simp [kidsOf, e1, e2])
        have hm : t ∈ f.filter fun t => !t.bare := List.mem_filter.2 ⟨ht, by simp [hb]⟩
        obtain ⟨a, b, e⟩ := List.append_of_mem hm
        rw [solidBits, e, bitsOf_append, bitsOf_cons] at hs
        simp at hs
      refine ⟨solidBits f :: Ls, k, by rw [levelsS, h1]; rfl, ?_, h3, h4⟩
      intro B hB
      rcases List.mem_cons.1 hB with rfl | hB
      · exact hs
      · exact h2 B hB

theorem flat_twice {t : FlatTrie} {d pad : Nat} {T : Tr d} (hh : t.height = d + 1)
    (hr : Rep (t.nav pad) (leafF (t.nav pad)) d 0 T 0) (hne : Thin 1 d T) (hl : leaves d [T] ≠ []) :
    t.encodeRuns pad = .ok { t with
      heightWithRuns := d + 1, runsEncoded := true, bTrie := (nodeLevelsS d [T]).flatten, lastLevel := (leaves d [T]).flatMap leafBits } := by
  rw [FlatTrie.encodeRuns, hh]
  simp only [Nat.add_eq_zero_iff, one_ne_zero, and_false, if_false, Nat.add_sub_cancel, writeCompress_thin_start hr hne, R_bind_ok]
  have hlen := length_levelsS d [T]
  obtain ⟨Ls, k, h1, h2, -, h4⟩ := levelsS_cases d [T]
  obtain rfl := h4 hl
  rw [List.replicate_zero, List.append_nil] at h1
  subst h1
  have he := levelsS_eq d [T]
  obtain ⟨e1, e2, e3⟩ := flat_write (Ls := nodeLevelsS d [T]) (k := 0)
    (B := (leaves d [T]).flatMap leafBits) (h2 _ (by rw [he]; simp)) (fun B hB => h2 B (by rw [he]; exact List.mem_append_left _ hB))
    (L := levelsS d [T]) (by rw [List.replicate_zero, List.append_nil]; exact he)
  rw [e1, e2]
  simp only [R_bind_ok]
  rw [e3]
  simp [length_nodeLevelsS]

theorem level_twice_levels {t : LevelTrie} {d pad : Nat} {il : Bool} {T : Tr d} (hh : t.height = d + 1)
    (hr : Rep (t.nav il pad) (leafF (t.nav il pad)) d 0 T 0) (hne : Thin 1 d T) :
    ∃ Ls k, levelsS d [T] = Ls ++ List.replicate k [] ∧ (∀ B ∈ Ls, B ≠ []) ∧ (leaves d [T] = [] → 1 ≤ k) ∧
      (leaves d [T] ≠ [] → k = 0) ∧ Ls.length + k = d + 1 ∧
      t.encodeRuns il pad = .ok { t with
        heightWithRuns := Ls.length - 1 + 1, runsEncoded := true,
        bTrie := nodeLevelsS d [T] ++ [(leaves d [T]).flatMap leafBits] } := by
  rw [LevelTrie.encodeRuns, hh]
  simp only [Nat.add_eq_zero_iff, one_ne_zero, and_false, if_false, Nat.add_sub_cancel, writeCompress_thin_start hr hne, R_bind_ok]
  have hlen := length_levelsS d [T]
  have hl := levelsS_eq d [T]
  obtain ⟨Ls, k, h1, h2, h3, h4⟩ := levelsS_cases d [T]
  have hk : Ls.length + k = d + 1 := by rw [h1] at hlen; simpa using hlen
  have e1 : lastNonEmpty ((levelsS d [T]).map List.length) 0 0 = Ls.length - 1 := by
    rw [h1]
    by_cases hL : Ls = []
    · subst hL
      simp [lastNonEmpty_zeros]
    · rw [lastNonEmpty_ok Ls k 0 0 h2 hL, Nat.zero_add]
  have e2 : (if il = true then List.take (Ls.length - 1 + 1) (List.map onesOf (levelsS d [T])) ++
      List.replicate (d + 1 - (Ls.length - 1 + 1)) [] else List.map onesOf (levelsS d [T])) = List.map onesOf (levelsS d [T]) := by
    split
    · have hz : List.map onesOf (List.replicate k ([] : BV)) = List.replicate k [] := by simp [onesOf, onesFrom]
      rw [h1, List.map_append, hz]
      by_cases hL : Ls = []
      · subst hL
        obtain ⟨j, rfl⟩ : ∃ j, k = j + 1 := ⟨k - 1, by simp at hk; omega⟩
        have : d = j := by simp at hk; omega
        subst this
        simp [List.replicate_succ]
      · have hp := List.length_pos_iff.2 hL
        rw [List.take_left' (by simp; omega), show d + 1 - (Ls.length - 1 + 1) = k by omega]
    · rfl
  refine ⟨Ls, k, h1, h2, h3, h4, hk, ?_⟩
  rw [e1, e2, zip_entries, levelWriteLoop_ok, hl]
  simp

theorem level_twice {t : LevelTrie} {d pad : Nat} {il : Bool} {T : Tr d} (hh : t.height = d + 1)
    (hr : Rep (t.nav il pad) (leafF (t.nav il pad)) d 0 T 0) (hne : Thin 1 d T) :
    ∃ k, k ≤ d ∧ (leaves d [T] ≠ [] → k = d) ∧ (leaves d [T] = [] → 1 ≤ d → k < d) ∧
      t.encodeRuns il pad = .ok { t with
        heightWithRuns := k + 1, runsEncoded := true, bTrie := nodeLevelsS d [T] ++ [(leaves d [T]).flatMap leafBits] } := by
  obtain ⟨Ls, k, -, -, h3, h4, hk, h⟩ := level_twice_levels hh hr hne
  refine ⟨Ls.length - 1, by omega, fun h => ?_, fun h hd => ?_, h⟩
  · have := h4 h; omega
  · have := h3 h; omega

theorem fastWriteCompress_thin {lg : Nat} {n : FNav} : ∀ (d level : Nat) (T : Tr d) (id : Nat) (A : List (List Nat))
    (P : List Nat) (Bs : List BV) (o : List Nat) (p : Nat) (nl : List Nat),
    Rep n.toNav (leafW lg n) d level T id → Thin lg d T → A.length = level → P.length = level → Bs.length = d →
    ∃ o' p', fastWriteCompress lg n d (fstAt A P Bs o p) nl level id =
      .ok (fstAt A P (cat Bs (nodeLevelsS d [T])) o' p', nl ++ leaves d [T], decide (d = 0) && full lg d T) := by
  intro d
  induction d with
  | zero =>
    intro level T id A P Bs o p nl hr hne hA hP hB
    have hB0 : Bs = [] := List.eq_nil_of_length_eq_zero hB
    subst hB0
    obtain ⟨hw, hn⟩ := hr
    refine ⟨o ++ [p + 0], p, ?_⟩
    rw [fastWriteCompress, hn]
    have : fstAt A P [] o p = { ones := A ++ o :: [], pos := P ++ p :: [] } := rfl
    simp only [R_bind_ok]
    rw [this, push_at hA hP]
    simp [fstAt, cat, leaves, full]
  | succ d ih =>
    intro level T id A P Bs o p nl hr hne hA hP hB
    obtain ⟨B, Bs, rfl⟩ : ∃ B Bs', Bs = B :: Bs' := by
      match Bs, hB with
      | B :: Bs, _ => exact ⟨B, Bs, rfl⟩
    have hB' : Bs.length = d := by simpa using hB
    obtain ⟨hn, hl, hr⟩ := hr
    rw [fastWriteCompress, hn]
    cases h1 : T.l with
    | none =>
      cases h2 : T.r with
      | none =>
        have hb : T.bare = true := by simp [Tr.bare, h1, h2]
        have e : nodeLevelsS (d + 1) [T] = [] :: List.replicate d [] := by
          simp [nodeLevelsS, solidBits, bitsOf, hb, kids, kidsOf, h1, h2, nodeLevelsS_nil]
        have e' : leaves (d + 1) [T] = [] := by simp [leaves, kids, kidsOf, h1, h2, leaves_nil]
        refine ⟨o, p, ?_⟩
        rw [e, e', cat_cons, cat_nils _ _ hB']
        simp [node2_ff]
      | some s' =>
        have hb : T.bare = false := by simp [Tr.bare, h1, h2]
        obtain ⟨c', hc', hR'⟩ := hr s' h2
        obtain ⟨o', p', e⟩ := ih (level + 1) s' c' (A ++ [onesOf B ++ [B.length + 1]]) (P ++ [B.length + 1]) Bs o p nl hR'
          (hne.2.2 s' h2) (by simp [hA]) (by simp [hP]) hB'
        refine ⟨o', p', ?_⟩
        simp only [Option.isSome, node2_ft, R_bind_ok, hc', fstAt_cons, inc_at hP, push_at hA hP, Nat.add_zero, Nat.reduceEqDiff, if_false, if_true]
        rw [fstAt_shift, e]
        simp only [← fstAt_shift, inc_at hP, R_bind_ok]
        simp [nodeLevelsS, solidBits, hb, h1, h2, leaves, bitsOf, nodeBits, kids, kidsOf, cat_cons, fstAt_cons, onesOf_append, onesFrom]
    | some s =>
      have hb : T.bare = false := by simp [Tr.bare, h1]
      obtain ⟨c, hc, hR, hRs⟩ := hl s h1
      cases h2 : T.r with
      | none =>
        obtain ⟨o', p', e⟩ := ih (level + 1) s c (A ++ [onesOf B ++ [B.length]]) (P ++ [B.length]) Bs o p nl hR (hne.2.1 s h1)
          (by simp [hA]) (by simp [hP]) hB'
        refine ⟨o', p', ?_⟩
        simp only [Option.isSome, node2_tf, R_bind_ok, hc, fstAt_cons, push_at hA hP, Nat.add_zero, Nat.reduceEqDiff, if_false, if_true]
        rw [fstAt_shift, e]
        simp only [← fstAt_shift, inc_at hP, R_bind_ok]
        simp [nodeLevelsS, solidBits, hb, h1, h2, leaves, bitsOf, nodeBits, kids, kidsOf, cat_cons, fstAt_cons, onesOf_append, onesFrom]
      | some s' =>
        have hR' := hRs s' h2
        obtain ⟨o1, p1, e⟩ := ih (level + 1) s c (A ++ [onesOf B]) (P ++ [B.length]) Bs o p nl hR (hne.2.1 s h1)
          (by simp [hA]) (by simp [hP]) hB'
        have hlen : (cat Bs (nodeLevelsS d [s])).length = d := by
          rw [length_cat (by rw [hB', length_nodeLevelsS])]; exact hB'
        obtain ⟨o2, p2, e'⟩ := ih (level + 1) s' (c + 1) (A ++ [onesOf B]) (P ++ [B.length]) (cat Bs (nodeLevelsS d [s]))
          o1 p1 (nl ++ leaves d [s]) hR' (hne.2.2 s' h2) (by simp [hA]) (by simp [hP]) hlen
        have hff : ((decide (d = 0) && full lg d s) && (decide (d = 0) && full lg d s')) = false := by
          have := hne.1 s s' h1 h2
          revert this
          cases decide (d = 0) <;> simp
        refine ⟨o2, p2, ?_⟩
        simp only [Option.isSome, node2_tt, R_bind_ok, hc, fstAt_cons, fstAt_shift, e, e', if_true, hff]
        simp only [Bool.false_eq_true, if_false, ← fstAt_shift, push_at hA hP, inc_at hP, R_bind_ok, R_pure]
        simp [nodeLevelsS, solidBits, hb, h1, h2, leaves, bitsOf, nodeBits, kids, kidsOf, cat_cons, fstAt_cons, onesOf_append, onesFrom, cat_assoc,
            ← nodeLevelsS_append, ← leaves_append]

theorem fast_twice {lg : Nat} {t : FastTrie} {d pad : Nat} {T : Tr d} (hh : t.height = d + 1)
    (hr : Rep (t.nav pad).toNav (leafW lg (t.nav pad)) d 0 T 0) (hne : Thin lg d T) :
    ∃ k, t.encodeRuns lg pad = .ok { t with
        heightWithRuns := k, runsEncoded := true, bTrie := (nodeLevelsS d [T]).flatten, lastLevel := leaves d [T] } := by
  have hs : ({ ones := List.replicate (d + 1) [], pos := List.replicate (d + 1) 0 } : RunSt) =
      fstAt [] [] (List.replicate d []) [] 0 := by
    simp [fstAt, onesOf, onesFrom, List.replicate_succ']
  obtain ⟨o, p, e⟩ := fastWriteCompress_thin d 0 T 0 [] [] (List.replicate d []) [] 0 [] hr hne rfl rfl (by simp)
  rw [nils_cat _ _ (length_nodeLevelsS d _)] at e
  rw [FastTrie.encodeRuns, hh, hs]
  simp only [Nat.add_eq_zero_iff, one_ne_zero, and_false, if_false, Nat.add_sub_cancel, e, R_bind_ok]
  have h1 : (fstAt [] [] (nodeLevelsS d [T]) o p).ones.take d = (nodeLevelsS d [T]).map onesOf := by
    rw [fstAt]; simp only [List.nil_append]; rw [List.take_left' (by simp [length_nodeLevelsS])]
  have h2 : (fstAt [] [] (nodeLevelsS d [T]) o p).pos.take d = (nodeLevelsS d [T]).map List.length := by
    rw [fstAt]; simp only [List.nil_append]; rw [List.take_left' (by simp [length_nodeLevelsS])]
  rw [h1, h2, zip_entries, sum_map_length]
  have h3 := fastWriteLoop_ok (nodeLevelsS d [T]) []
  simp only [List.nil_append, List.length_nil] at h3
  rw [h3]
  exact ⟨_, rfl⟩

end CBT
