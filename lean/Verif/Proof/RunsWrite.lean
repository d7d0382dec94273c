import Verif.Proof.RunsEnc

/-!
# Writing the run-encoded levels back
-/

namespace CBT

theorem setAll_ok : (B X Y : BV) → (off k : Nat) → X.length = off + k →
    setAll off (onesFrom k B) (X ++ (List.replicate B.length false ++ Y)) = .ok (X ++ (B ++ Y))
  | [], X, Y, off, k, _ => by simp [onesFrom, setAll]
  | false :: B, X, Y, off, k, h => by
    have := setAll_ok B (X ++ [false]) Y off (k + 1) (by simp; omega)
    simpa [onesFrom, List.replicate_succ] using this
  | true :: B, X, Y, off, k, h => by
    have := setAll_ok B (X ++ [true]) Y off (k + 1) (by simp; omega)
    simp only [onesFrom, setAll, List.length_cons, List.replicate_succ]
    have hb : bvSet (X ++ (false :: List.replicate B.length false ++ Y)) (off + k) =
        .ok (X ++ (true :: List.replicate B.length false ++ Y)) := by
      rw [bvSet, if_pos (by simp; omega), ← h]; simp
    rw [hb, R_bind_ok]
    simpa using this

theorem setAll_all (B : BV) : setAll 0 (onesOf B) (List.replicate B.length false) = .ok B := by
  have := setAll_ok B [] [] 0 0 rfl
  simpa [onesOf] using this

def entry (B : BV) : List Nat × Nat := (onesOf B, B.length)

theorem zip_entries (Ls : List BV) : (Ls.map onesOf).zip (Ls.map List.length) = Ls.map entry := by
  induction Ls with
  | nil => rfl
  | cons B Ls ih => simp [ih, entry]

theorem flatWriteLoop_ok : (Ls : List BV) → (B X : BV) → (last level : Nat) → level + Ls.length = last →
    flatWriteLoop last ((Ls ++ [B]).map entry) level X.length (X ++ List.replicate Ls.flatten.length false)
      (List.replicate B.length false) = .ok (X ++ Ls.flatten, B)
  | [], B, X, last, level, h => by
    have : level = last := by simpa using h
    simp [flatWriteLoop, entry, this, setAll_all]
  | L :: Ls, B, X, last, level, h => by
    have hlt : level ≠ last := by simp at h; omega
    have hlt' : level < last := by simp at h; omega
    have ih := flatWriteLoop_ok Ls B (X ++ L) last (level + 1) (by simp at h; omega)
    have hs := setAll_ok L X (List.replicate Ls.flatten.length false) X.length 0 (by simp)
    rw [List.cons_append, List.map_cons]
    simp only [entry, flatWriteLoop, hlt, hlt', if_false, if_true]
    rw [List.flatten_cons, List.length_append, ← List.replicate_append_replicate]
    rw [onesOf, hs]
    simp only [R_bind_ok, R_pure]
    simpa using ih

theorem levelWriteLoop_ok : (Ls : List BV) → levelWriteLoop (Ls.map entry) = .ok Ls
  | [] => rfl
  | L :: Ls => by simp [levelWriteLoop, entry, setAll_all, levelWriteLoop_ok Ls]

theorem fastWriteLoop_ok : (Ls : List BV) → (X : BV) →
    fastWriteLoop (Ls.map entry) X.length (X ++ List.replicate Ls.flatten.length false) = .ok (X ++ Ls.flatten)
  | [], X => by simp [fastWriteLoop]
  | L :: Ls, X => by
    have ih := fastWriteLoop_ok Ls (X ++ L)
    have hs := setAll_ok L X (List.replicate Ls.flatten.length false) X.length 0 (by simp)
    rw [List.map_cons]
    simp only [entry, fastWriteLoop]
    rw [List.flatten_cons, List.length_append, ← List.replicate_append_replicate]
    rw [onesOf, hs]
    simp only [R_bind_ok]
    simpa using ih

theorem lastNonEmpty_zeros : (k level last : Nat) → lastNonEmpty (List.replicate k 0) level last = last
  | 0, _, _ => rfl
  | k + 1, level, last => by simp [List.replicate_succ, lastNonEmpty, lastNonEmpty_zeros k]

theorem lastNonEmpty_ok : (Ls : List BV) → (k level last : Nat) → (∀ B ∈ Ls, B ≠ []) → Ls ≠ [] →
    lastNonEmpty ((Ls ++ List.replicate k []).map List.length) level last = level + Ls.length - 1
  | [], _, _, _, _, h => (h rfl).elim
  | [L], k, level, last, h, _ => by
    have : 0 < L.length := List.length_pos_iff.2 (h L (by simp))
    simp [lastNonEmpty, this, lastNonEmpty_zeros]
  | L :: L' :: Ls, k, level, last, h, _ => by
    have ih := lastNonEmpty_ok (L' :: Ls) k (level + 1) (if L.length > 0 then level else last)
      (fun B hB => h B (List.mem_cons_of_mem _ hB)) (by simp)
    rw [List.cons_append, List.map_cons, lastNonEmpty, ih]
    simp; omega

theorem kids_nil_bare {d : Nat} {f : List (Tr (d + 1))} (h : kids f = []) : ∀ t ∈ f, t.bare = true := by
  intro t ht
  have := List.flatMap_eq_nil_iff.1 h t ht
  simp only [kidsOf, List.append_eq_nil_iff, Option.toList_eq_nil_iff] at this
  simp [Tr.bare, this.1, this.2]

theorem bitsOf_bare {d : Nat} : (f : List (Tr (d + 1))) → (∀ t ∈ f, t.bare = true) →
    bitsOf f = List.replicate (2 * f.length) false
  | [], _ => rfl
  | t :: f, h => by
    obtain ⟨h1, h2⟩ := Tr.bare_eq (h t (by simp))
    rw [bitsOf_cons, h1, h2, bitsOf_bare f (fun t ht => h t (List.mem_cons_of_mem _ ht)), List.length_cons,
      show 2 * (f.length + 1) = 2 * f.length + 1 + 1 by omega]
    simp [List.replicate_succ]

/-- The non-empty levels come first; if the leaf level is empty the deepest non-empty level has no ones. -/
theorem levels_cases : (d : Nat) → (f : List (Tr d)) → f ≠ [] →
    (leaves d f ≠ [] ∧ ∀ B ∈ levelsF d f, B ≠ []) ∨
    (leaves d f = [] ∧ ∃ Ls z k, levelsF d f = Ls ++ [List.replicate (z + 1) false] ++ List.replicate (k + 1) [] ∧
      (∀ B ∈ Ls, B ≠ []) ∧ flatBits d f = Ls.flatten ++ List.replicate (z + 1) false ∧
      ∀ t ∈ f, Stops Ls.length d t)
  | 0, f, h => by
    left
    cases f with
    | nil => exact (h rfl).elim
    | cons a f => simp [leaves, levelsF, leafBits]
  | d + 1, f, h => by
    have hne : bitsOf f ≠ [] := by
      cases f with
      | nil => exact (h rfl).elim
      | cons a f => simp [bitsOf_cons]
    by_cases hk : kids f = []
    · right
      have hb := kids_nil_bare hk
      have hl : ∀ d, leaves d ([] : List (Tr d)) = [] := by
        intro d; induction d with
        | zero => rfl
        | succ d ih => exact ih
      have hfb : ∀ d, flatBits d ([] : List (Tr d)) = [] := by
        intro d; induction d with
        | zero => rfl
        | succ d ih => simpa [flatBits] using ih
      have hz : 2 * f.length = (2 * f.length - 1) + 1 := by
        have := List.length_pos_iff.2 h; omega
      refine ⟨by rw [leaves, hk, hl], [], 2 * f.length - 1, d, ?_, by simp, ?_, ?_⟩
      · rw [levelsF, hk, levelsF_nil, bitsOf_bare f hb, ← hz]; rfl
      · rw [flatBits, hk, hfb, bitsOf_bare f hb, ← hz]; simp
      · intro t ht; exact hb t ht
    · rcases levels_cases d (kids f) hk with ⟨h1, h2⟩ | ⟨h1, Ls, z, k, h2, h3, h4, h5⟩
      · left
        refine ⟨h1, fun B hB => ?_⟩
        rcases List.mem_cons.1 hB with rfl | hB
        · exact hne
        · exact h2 B hB
      · right
        refine ⟨h1, bitsOf f :: Ls, z, k, by rw [levelsF, h2]; rfl, ?_, by rw [flatBits, h4]; simp, ?_⟩
        · intro B hB
          rcases List.mem_cons.1 hB with rfl | hB
          · exact hne
          · exact h3 B hB
        · intro t ht
          refine ⟨fun s hs => h5 s ?_, fun s hs => h5 s ?_⟩
          · exact List.mem_flatMap.2 ⟨t, ht, by simp [kidsOf, hs]⟩
          · exact List.mem_flatMap.2 ⟨t, ht, by simp [kidsOf, hs]⟩

/-! ## The two bit-vector families -/

theorem startSt (n : Nat) : ({ ones := List.replicate n [], pos := List.replicate n 0 } : RunSt) = stAt [] [] (List.replicate n []) := by
  simp [stAt, onesOf, onesFrom]

theorem writeCompress_start {n : Nav} {d : Nat} {T : Tr d} (hr : Rep n (leafF n) d 0 T 0) (hne : NE 1 d T) :
    writeCompress n d { ones := List.replicate (d + 1) [], pos := List.replicate (d + 1) 0 } 0 0 =
      .ok ({ ones := (levelsF d [prune 1 d T]).map onesOf, pos := (levelsF d [prune 1 d T]).map List.length },
        full 1 d T) := by
  rw [startSt, writeCompress_ok d 0 T 0 [] [] _ hr hne rfl rfl (by simp), nils_cat _ _ (length_levelsF d _)]
  rfl

theorem sum_map_length (Ls : List BV) : (Ls.map List.length).sum = Ls.flatten.length := by
  simp [List.length_flatten]

/-- The result of `writeOnes` for a level list whose non-empty part is `Ls ++ [B]`. -/
theorem flat_write {Ls : List BV} {B : BV} {k : Nat} (hB : B ≠ []) (hL : ∀ B ∈ Ls, B ≠ []) {L : List BV}
    (h : L = Ls ++ [B] ++ List.replicate k []) :
    lastNonEmpty (L.map List.length) 0 0 = Ls.length ∧ vGet (L.map List.length) Ls.length = .ok B.length ∧
    flatWriteLoop Ls.length (((L.map onesOf).zip (L.map List.length)).take (Ls.length + 1)) 0 0
      (List.replicate ((L.map List.length).sum - B.length) false) (List.replicate B.length false) = .ok (Ls.flatten, B) := by
  subst h
  refine ⟨?_, ?_, ?_⟩
  · rw [lastNonEmpty_ok (Ls ++ [B]) k 0 0 ?_ (by simp)]
    · simp
    · intro C hC
      rcases List.mem_append.1 hC with hC | hC
      · exact hL C hC
      · rw [List.mem_singleton.1 hC]; exact hB
  · simp [vGet]
  · rw [zip_entries, List.map_append, List.take_left' (by simp), sum_map_length]
    have := flatWriteLoop_ok Ls B [] Ls.length 0 (by simp)
    simpa using this

theorem flat_encodeRuns_ok {t : FlatTrie} {d pad : Nat} {T : Tr d} (hh : t.height = d + 1)
    (hr : Rep (t.nav pad) (leafF (t.nav pad)) d 0 T 0) (hne : NE 1 d T) :
    (leaves d [prune 1 d T] ≠ [] ∧
      t.encodeRuns pad = .ok { t with
        heightWithRuns := d + 1, runsEncoded := true, bTrie := flatBits d [prune 1 d T],
        lastLevel := (leaves d [prune 1 d T]).flatMap leafBits }) ∨
    (leaves d [prune 1 d T] = [] ∧ ∃ b z k, flatBits d [prune 1 d T] = b ++ List.replicate (z + 1) false ∧ k ≤ d ∧
      t.encodeRuns pad = .ok { t with
        heightWithRuns := k, runsEncoded := true, bTrie := b, lastLevel := List.replicate (z + 1) false }) := by
  rw [FlatTrie.encodeRuns, hh]
  simp only [Nat.add_eq_zero_iff, one_ne_zero, and_false, if_false, Nat.add_sub_cancel, writeCompress_start hr hne, R_bind_ok]
  have hlen := length_levelsF d [prune 1 d T]
  rcases levels_cases d [prune 1 d T] (by simp) with ⟨h1, h2⟩ | ⟨h1, Ls, z, k, h2, h3, h4, h5⟩
  · left
    refine ⟨h1, ?_⟩
    have hl := levelsF_eq d [prune 1 d T]
    obtain ⟨e1, e2, e3⟩ := flat_write (Ls := nodeLevels d [prune 1 d T]) (k := 0)
      (B := (leaves d [prune 1 d T]).flatMap leafBits) (h2 _ (by rw [hl]; simp)) (fun B hB => h2 B (by rw [hl]; exact List.mem_append_left _ hB))
      (L := levelsF d [prune 1 d T]) (by rw [List.replicate_zero, List.append_nil]; exact hl)
    rw [e1, e2]
    simp only [R_bind_ok]
    rw [e3]
    simp [length_nodeLevels, flatten_nodeLevels]
  · right
    refine ⟨h1, Ls.flatten, z, Ls.length + 1, h4, ?_, ?_⟩
    · rw [h2] at hlen; simp at hlen; omega
    obtain ⟨e1, e2, e3⟩ := flat_write (Ls := Ls) (k := k + 1) (B := List.replicate (z + 1) false) (by simp) h3 h2
    rw [e1, e2]
    simp only [R_bind_ok]
    rw [e3]
    rfl

theorem level_encodeRuns_ok {t : LevelTrie} {d pad : Nat} {il : Bool} {T : Tr d} (hh : t.height = d + 1)
    (hr : Rep (t.nav il pad) (leafF (t.nav il pad)) d 0 T 0) (hne : NE 1 d T) :
    ∃ k, k ≤ d ∧ Stops k d (prune 1 d T) ∧
      t.encodeRuns il pad = .ok { t with
        heightWithRuns := k + 1, runsEncoded := true,
        bTrie := nodeLevels d [prune 1 d T] ++ [(leaves d [prune 1 d T]).flatMap leafBits] } := by
  rw [LevelTrie.encodeRuns, hh]
  simp only [Nat.add_eq_zero_iff, one_ne_zero, and_false, if_false, Nat.add_sub_cancel, writeCompress_start hr hne, R_bind_ok]
  have hlen := length_levelsF d [prune 1 d T]
  have hl := levelsF_eq d [prune 1 d T]
  rcases levels_cases d [prune 1 d T] (by simp) with ⟨h1, h2⟩ | ⟨h1, Ls, z, k, h2, h3, h4, h5⟩
  · refine ⟨d, Nat.le_refl _, Stops.refl _ _, ?_⟩
    have e1 := lastNonEmpty_ok (levelsF d [prune 1 d T]) 0 0 0 h2 (by rw [hl]; simp)
    rw [List.replicate_zero, List.append_nil, hlen] at e1
    rw [e1]
    have e2 : (if il = true then List.take (0 + (d + 1) - 1 + 1) (List.map onesOf (levelsF d [prune 1 d T])) ++
        List.replicate (d + 1 - (0 + (d + 1) - 1 + 1)) [] else List.map onesOf (levelsF d [prune 1 d T])) =
        List.map onesOf (levelsF d [prune 1 d T]) := by
      split
      · rw [List.take_of_length_le (by simp [hlen])]; simp
      · rfl
    rw [e2, zip_entries, levelWriteLoop_ok, hl]
    simp
  · have hkd : Ls.length + 1 + (k + 1) = d + 1 := by rw [h2] at hlen; simp at hlen; omega
    refine ⟨Ls.length, by omega, h5 _ (by simp), ?_⟩
    have e1 : lastNonEmpty ((levelsF d [prune 1 d T]).map List.length) 0 0 = Ls.length := by
      rw [h2, lastNonEmpty_ok (Ls ++ [List.replicate (z + 1) false]) (k + 1) 0 0 _ (by simp)]
      · simp
      · intro C hC
        rcases List.mem_append.1 hC with hC | hC
        · exact h3 C hC
        · rw [List.mem_singleton.1 hC]; simp
    rw [e1]
    have e2 : (if il = true then List.take (Ls.length + 1) (List.map onesOf (levelsF d [prune 1 d T])) ++
        List.replicate (d + 1 - (Ls.length + 1)) [] else List.map onesOf (levelsF d [prune 1 d T])) =
        List.map onesOf (levelsF d [prune 1 d T]) := by
      split
      · rw [h2, List.map_append, List.take_left' (by simp), show d + 1 - (Ls.length + 1) = k + 1 by omega]
        simp [onesOf, onesFrom]
      · rfl
    rw [e2, zip_entries, levelWriteLoop_ok, hl]
    simp

/-! ## The fast trie -/

/-- The arrays of the fast `encodeRuns`: the entry of the word level is never used. -/
def fstAt (A : List (List Nat)) (P : List Nat) (Bs : List BV) (o : List Nat) (p : Nat) : RunSt :=
  { ones := A ++ (Bs.map onesOf ++ [o]), pos := P ++ (Bs.map List.length ++ [p]) }

theorem fstAt_cons (A : List (List Nat)) (P : List Nat) (B : BV) (Bs : List BV) (o : List Nat) (p : Nat) :
    fstAt A P (B :: Bs) o p =
      { ones := A ++ onesOf B :: (Bs.map onesOf ++ [o]), pos := P ++ B.length :: (Bs.map List.length ++ [p]) } := rfl

theorem fstAt_shift (A : List (List Nat)) (P : List Nat) (o : List Nat) (p : Nat) (Bs : List BV) (o' : List Nat) (p' : Nat) :
    ({ ones := A ++ o :: (Bs.map onesOf ++ [o']), pos := P ++ p :: (Bs.map List.length ++ [p']) } : RunSt) =
      fstAt (A ++ [o]) (P ++ [p]) Bs o' p' := by
  simp [fstAt]

theorem nodeLevels_append : (d : Nat) → (f g : List (Tr d)) →
    nodeLevels d (f ++ g) = cat (nodeLevels d f) (nodeLevels d g)
  | 0, f, g => by simp [nodeLevels, cat]
  | d + 1, f, g => by rw [nodeLevels, bitsOf_append, kids_append, nodeLevels_append d]; rfl

theorem leaves_append : (d : Nat) → (f g : List (Tr d)) → leaves d (f ++ g) = leaves d f ++ leaves d g
  | 0, f, g => by simp [leaves]
  | d + 1, f, g => by rw [leaves, kids_append, leaves_append d]; rfl

theorem nodeLevels_nil : (d : Nat) → nodeLevels d [] = List.replicate d []
  | 0 => rfl
  | d + 1 => by rw [nodeLevels, kids_nil, nodeLevels_nil d]; rfl

theorem leaves_nil : (d : Nat) → leaves d [] = []
  | 0 => rfl
  | d + 1 => by rw [leaves, kids_nil, leaves_nil d]

theorem nodeLevels_full {b d : Nat} {t : Tr (d + 1)} (h : full b (d + 1) t = true) :
    nodeLevels (d + 1) [prune b (d + 1) t] = [false, false] :: List.replicate d [] := by
  rw [prune_full h]
  simp [nodeLevels, bitsOf, nodeBits, kids, kidsOf, nodeLevels_nil]

theorem leaves_full {b d : Nat} {t : Tr (d + 1)} (h : full b (d + 1) t = true) :
    leaves (d + 1) [prune b (d + 1) t] = [] := by
  rw [prune_full h]
  simp [leaves, kids, kidsOf, leaves_nil]

theorem fastWriteCompress_ok {lg : Nat} {n : FNav} : ∀ (d level : Nat) (T : Tr d) (id : Nat) (A : List (List Nat))
    (P : List Nat) (Bs : List BV) (o : List Nat) (p : Nat) (nl : List Nat),
    Rep n.toNav (leafW lg n) d level T id → NE lg d T → A.length = level → P.length = level → Bs.length = d →
    ∃ o' p', fastWriteCompress lg n d (fstAt A P Bs o p) nl level id =
      .ok (fstAt A P (cat Bs (nodeLevels d [prune lg d T])) o' p', nl ++ leaves d [prune lg d T], full lg d T) := by
  intro d
  induction d with
  | zero =>
    intro level T id A P Bs o p nl hr hne hA hP hB
    have hB0 : Bs = [] := List.eq_nil_of_length_eq_zero hB
    subst hB0
    obtain ⟨hw, hn⟩ := hr
    refine ⟨o ++ [p + 0], p, ?_⟩
    rw [fastWriteCompress, hn]
    have : fstAt A P [] o p = { ones := A ++ o :: [], pos := P ++ p :: [] } := rfl
    simp only [R_bind_ok]
    rw [this, push_at hA hP]
    simp [fstAt, cat, leaves, prune, full]
  | succ d ih =>
    intro level T id A P Bs o p nl hr hne hA hP hB
    obtain ⟨B, Bs, rfl⟩ : ∃ B Bs', Bs = B :: Bs' := by
      match Bs, hB with
      | B :: Bs, _ => exact ⟨B, Bs, rfl⟩
    have hB' : Bs.length = d := by simpa using hB
    obtain ⟨hn, hl, hr⟩ := hr
    rw [fastWriteCompress, hn]
    cases h1 : T.l with
    | none =>
      cases h2 : T.r with
      | none => have := hne.1; simp [Tr.bare, h1, h2] at this
      | some s' =>
        obtain ⟨c', hc', hR'⟩ := hr s' h2
        obtain ⟨o', p', e⟩ := ih (level + 1) s' c' (A ++ [onesOf B ++ [B.length + 1]]) (P ++ [B.length + 1]) Bs o p nl hR'
          (hne.2.2 s' h2) (by simp [hA]) (by simp [hP]) hB'
        refine ⟨o', p', ?_⟩
        have hf : full lg (d + 1) T = false := full_one (Or.inl h1)
        simp only [Option.isSome, node2_ft, R_bind_ok, hc', fstAt_cons, inc_at hP, push_at hA hP, Nat.add_zero, Nat.reduceEqDiff, if_false, if_true]
        rw [fstAt_shift, e]
        simp only [← fstAt_shift, inc_at hP, R_bind_ok, hf, prune_not_full hf, h1, h2, Option.map_none, Option.map_some]
        simp [nodeLevels, leaves, bitsOf, nodeBits, kids, kidsOf, cat_cons, fstAt_cons, onesOf_append, onesFrom]
    | some s =>
      obtain ⟨c, hc, hR, hRs⟩ := hl s h1
      cases h2 : T.r with
      | none =>
        obtain ⟨o', p', e⟩ := ih (level + 1) s c (A ++ [onesOf B ++ [B.length]]) (P ++ [B.length]) Bs o p nl hR (hne.2.1 s h1)
          (by simp [hA]) (by simp [hP]) hB'
        refine ⟨o', p', ?_⟩
        have hf : full lg (d + 1) T = false := full_one (Or.inr h2)
        simp only [Option.isSome, node2_tf, R_bind_ok, hc, fstAt_cons, push_at hA hP, Nat.add_zero, Nat.reduceEqDiff, if_false, if_true]
        rw [fstAt_shift, e]
        simp only [← fstAt_shift, inc_at hP, R_bind_ok, hf, prune_not_full hf, h1, h2, Option.map_none, Option.map_some]
        simp [nodeLevels, leaves, bitsOf, nodeBits, kids, kidsOf, cat_cons, fstAt_cons, onesOf_append, onesFrom]
      | some s' =>
        have hR' := hRs s' h2
        obtain ⟨o1, p1, e⟩ := ih (level + 1) s c (A ++ [onesOf B]) (P ++ [B.length]) Bs o p nl hR (hne.2.1 s h1)
          (by simp [hA]) (by simp [hP]) hB'
        have hlen : (cat Bs (nodeLevels d [prune lg d s])).length = d := by
          rw [length_cat (by rw [hB', length_nodeLevels])]; exact hB'
        obtain ⟨o2, p2, e'⟩ := ih (level + 1) s' (c + 1) (A ++ [onesOf B]) (P ++ [B.length]) (cat Bs (nodeLevels d [prune lg d s]))
          o1 p1 (nl ++ leaves d [prune lg d s]) hR' (hne.2.2 s' h2) (by simp [hA]) (by simp [hP]) hlen
        simp only [Option.isSome, node2_tt, R_bind_ok, hc, fstAt_cons, fstAt_shift, e, e', if_true]
        have hfe : full lg (d + 1) T = (full lg d s && full lg d s') := by rw [full, h1, h2]; rfl
        cases hff : full lg d s && full lg d s' with
        | true =>
          rw [hff] at hfe
          obtain ⟨f1, f2⟩ := Bool.and_eq_true_iff.1 hff
          rw [hfe, nodeLevels_full hfe, leaves_full hfe, cat_cons, cat_nils _ _ hB']
          have hPl : (P ++ [B.length]).length = level + 1 := by simp [hP]
          cases d with
          | zero =>
            have hB0 : Bs = [] := List.eq_nil_of_length_eq_zero hB'
            subst hB0
            refine ⟨o2, if 4 ≤ p2 then p2 - 4 else p2 + 2 ^ 64 - 4, ?_⟩
            have hst : fstAt (A ++ [onesOf B]) (P ++ [B.length]) (cat (cat [] (nodeLevels 0 [prune lg 0 s])) (nodeLevels 0 [prune lg 0 s'])) o2 p2 =
              { ones := (A ++ [onesOf B]) ++ [o2], pos := (P ++ [B.length]) ++ p2 :: [] } := rfl
            rw [hst]
            simp only [if_true, dec4_at hPl, R_bind_ok]
            simp [leaves, inc_at hP, fstAt, onesOf_append, onesFrom]
          | succ d =>
            obtain ⟨B1, Bs2, rfl⟩ : ∃ B Bs', Bs = B :: Bs' := by
              match Bs, hB' with
              | B :: Bs, _ => exact ⟨B, Bs, rfl⟩
            have hB2 : Bs2.length = d := by simpa using hB'
            refine ⟨o2, p2, ?_⟩
            rw [nodeLevels_full f1, nodeLevels_full f2, leaves_full f1, leaves_full f2]
            simp only [cat_cons, cat_nils Bs2 d hB2, Nat.add_eq_zero_iff, one_ne_zero, and_false, if_false, if_true, fstAt_cons,
              dec4_at hPl, R_bind_ok, R_pure]
            simp [inc_at hP, onesOf_append, onesFrom]
        | false =>
          rw [hff] at hfe
          refine ⟨o2, p2, ?_⟩
          simp only [Bool.false_eq_true, if_false, ← fstAt_shift, push_at hA hP, inc_at hP, R_bind_ok, R_pure, hfe, prune_not_full hfe,
            h1, h2, Option.map_some]
          simp [nodeLevels, leaves, bitsOf, nodeBits, kids, kidsOf, cat_cons, fstAt_cons, onesOf_append, onesFrom, cat_assoc,
            ← nodeLevels_append, ← leaves_append]

theorem fast_encodeRuns_ok {lg : Nat} {t : FastTrie} {d pad : Nat} {T : Tr d} (hh : t.height = d + 1)
    (hr : Rep (t.nav pad).toNav (leafW lg (t.nav pad)) d 0 T 0) (hne : NE lg d T) :
    ∃ k, t.encodeRuns lg pad = .ok { t with
        heightWithRuns := k, runsEncoded := true, bTrie := flatBits d [prune lg d T],
        lastLevel := leaves d [prune lg d T] } := by
  have hs : ({ ones := List.replicate (d + 1) [], pos := List.replicate (d + 1) 0 } : RunSt) =
      fstAt [] [] (List.replicate d []) [] 0 := by
    simp [fstAt, onesOf, onesFrom, List.replicate_succ']
  obtain ⟨o, p, e⟩ := fastWriteCompress_ok d 0 T 0 [] [] (List.replicate d []) [] 0 [] hr hne rfl rfl (by simp)
  rw [nils_cat _ _ (length_nodeLevels d _)] at e
  rw [FastTrie.encodeRuns, hh, hs]
  simp only [Nat.add_eq_zero_iff, one_ne_zero, and_false, if_false, Nat.add_sub_cancel, e, R_bind_ok]
  have h1 : (fstAt [] [] (nodeLevels d [prune lg d T]) o p).ones.take d = (nodeLevels d [prune lg d T]).map onesOf := by
    rw [fstAt]; simp only [List.nil_append]; rw [List.take_left' (by simp [length_nodeLevels])]
  have h2 : (fstAt [] [] (nodeLevels d [prune lg d T]) o p).pos.take d = (nodeLevels d [prune lg d T]).map List.length := by
    rw [fstAt]; simp only [List.nil_append]; rw [List.take_left' (by simp [length_nodeLevels])]
  rw [h1, h2, zip_entries, sum_map_length]
  have h3 := fastWriteLoop_ok (nodeLevels d [prune lg d T]) []
  simp only [List.nil_append, List.length_nil] at h3
  rw [h3, flatten_nodeLevels]
  exact ⟨_, rfl⟩

end CBT
