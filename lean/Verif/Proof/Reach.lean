import Verif.Proof.Appends

/-!
# Invariants of every trie a constructor and `encodeRuns` can produce, whatever the input
-/

namespace CBT

/-- Every successful outcome of `x` satisfies `P`. -/
def Post {α : Type} (x : R α) (P : α → Prop) : Prop := ∀ a, x = .ok a → P a

theorem Post.bind {α β : Type} {x : R α} {f : α → R β} {Q : α → Prop} {P : β → Prop} (h : Post x Q)
    (hf : ∀ a, Q a → Post (f a) P) : Post (x >>= f) P := fun b hb => by
  obtain ⟨a, ha, hb⟩ := bind_ok hb
  exact hf a (h a ha) b hb

theorem Post.any {α : Type} (x : R α) : Post x fun _ => True := fun _ _ => trivial

theorem Post.ok {α : Type} {a : α} {P : α → Prop} (h : P a) : Post (.ok a) P := fun b hb => by
  injection hb with hb; subst hb; exact h

theorem Post.pure {α : Type} {a : α} {P : α → Prop} (h : P a) : Post (pure a) P := Post.ok h

theorem Post.error {α : Type} {e : UB} {P : α → Prop} : Post (.error e) P := fun b hb => by cases hb

theorem Post.throw {α : Type} {e : UB} {P : α → Prop} : Post (throw e) P := fun b hb => by cases hb

theorem Post.ite {α : Type} {c : Prop} [Decidable c] {x y : R α} {P : α → Prop} (h1 : c → Post x P) (h2 : ¬c → Post y P) :
    Post (if c then x else y) P := by
  split
  · exact h1 ‹_›
  · exact h2 ‹_›

theorem Post.mono {α : Type} {x : R α} {P Q : α → Prop} (h : Post x P) (hq : ∀ a, P a → Q a) : Post x Q :=
  fun a ha => hq a (h a ha)

/-- The arrays keep their sizes. -/
def RunSt.Sized (H : Nat) (s : RunSt) : Prop := s.ones.length = H ∧ s.pos.length = H

theorem push_sized {H : Nat} {s : RunSt} (h : s.Sized H) (level k : Nat) : Post (s.push level k) (RunSt.Sized H) :=
  (Post.any _).bind fun _ _ => (Post.any _).bind fun _ _ => Post.ok ⟨by simpa using h.1, h.2⟩

theorem inc_sized {H : Nat} {s : RunSt} (h : s.Sized H) (level k : Nat) : Post (s.inc level k) (RunSt.Sized H) :=
  (Post.any _).bind fun _ _ => Post.ok ⟨h.1, by simpa using h.2⟩

theorem dec4_sized {H : Nat} {s : RunSt} (h : s.Sized H) (level : Nat) : Post (s.dec4 level) (RunSt.Sized H) :=
  (Post.any _).bind fun _ _ => Post.ok ⟨h.1, by simpa using h.2⟩

theorem pop4_sized {H : Nat} {s : RunSt} (h : s.Sized H) (level : Nat) : Post (s.pop4 level) (RunSt.Sized H) := by
  unfold RunSt.pop4
  refine (Post.any _).bind fun o _ => ?_
  refine Post.ite (fun _ => ?_) (fun _ => ?_)
  · exact Post.bind (Q := fun _ => True) Post.error (fun _ _ => Post.ok ⟨by simpa using h.1, h.2⟩)
  · exact Post.ok ⟨by simpa using h.1, h.2⟩

theorem writeCompress_sized {H : Nat} {n : Nav} : (rem : Nat) → (s : RunSt) → (level id : Nat) → s.Sized H →
    Post (writeCompress n rem s level id) fun r => r.1.Sized H
  | 0, s, level, id, h => by
    rw [writeCompress]
    refine (Post.any _).bind fun node _ => ?_
    refine Post.ite (fun _ => ?_) (fun _ => ?_)
    · refine (push_sized h _ _).bind fun s h => (inc_sized h _ _).bind fun s h => ?_
      refine Post.ite (fun _ => ?_) (fun _ => ?_)
      · exact (push_sized h _ _).bind fun s h => (inc_sized h _ _).bind fun s h => Post.ok h
      · exact (Post.pure h).bind fun s h => (inc_sized h _ _).bind fun s h => Post.ok h
    · refine (Post.pure h).bind fun s h => (inc_sized h _ _).bind fun s h => ?_
      refine Post.ite (fun _ => ?_) (fun _ => ?_)
      · exact (push_sized h _ _).bind fun s h => (inc_sized h _ _).bind fun s h => Post.ok h
      · exact (Post.pure h).bind fun s h => (inc_sized h _ _).bind fun s h => Post.ok h
  | rem + 1, s, level, id, h => by
    rw [writeCompress]
    refine (Post.any _).bind fun node _ => ?_
    refine Post.ite (fun _ => ?_) fun _ => Post.ite (fun _ => ?_) fun _ => Post.ite (fun _ => ?_) fun _ => ?_
    · refine (Post.any _).bind fun l _ => (writeCompress_sized rem s _ _ h).bind fun a h => ?_
      obtain ⟨s, fl⟩ := a
      refine (writeCompress_sized rem s _ _ h).bind fun a h => ?_
      obtain ⟨s, fr⟩ := a
      refine Post.ite (fun _ => ?_) (fun _ => ?_)
      · refine (dec4_sized h _).bind fun s h => ?_
        refine Post.ite (fun _ => ?_) (fun _ => ?_)
        · exact (pop4_sized h _).bind fun s h => (inc_sized h _ _).bind fun s h => Post.ok h
        · exact (Post.pure h).bind fun s h => (inc_sized h _ _).bind fun s h => Post.ok h
      · exact (push_sized h _ _).bind fun s h => (push_sized h _ _).bind fun s h => (inc_sized h _ _).bind fun s h => Post.ok h
    · refine (Post.any _).bind fun l _ => (push_sized h _ _).bind fun s h => (writeCompress_sized rem s _ _ h).bind fun a h => ?_
      exact (inc_sized h _ _).bind fun s h => (inc_sized h _ _).bind fun s h => Post.ok h
    · refine (inc_sized h _ _).bind fun s h => (Post.any _).bind fun r _ => (push_sized h _ _).bind fun s h =>
        (writeCompress_sized rem s _ _ h).bind fun a h => ?_
      exact (inc_sized h _ _).bind fun s h => Post.ok h
    · exact Post.ok h

theorem lastNonEmpty_le : (pos : List Nat) → (level last : Nat) → last ≤ level → lastNonEmpty pos level last ≤ level + pos.length - 1 ∨
    lastNonEmpty pos level last = last
  | [], _, _, _ => .inr rfl
  | p :: ps, level, last, h => by
    rw [lastNonEmpty]
    rcases lastNonEmpty_le ps (level + 1) (if p > 0 then level else last) (by split <;> omega) with h1 | h1
    · left; simp only [List.length_cons]; omega
    · rw [h1]; split
      · left; simp only [List.length_cons]; omega
      · right; rfl

theorem levelWriteLoop_length : (lv : List (List Nat × Nat)) → Post (levelWriteLoop lv) fun vs => vs.length = lv.length
  | [] => Post.ok rfl
  | (ones, p) :: rest => by
    rw [levelWriteLoop]
    exact (Post.any _).bind fun v _ => (levelWriteLoop_length rest).bind fun vs h => Post.ok (by simp [h])

/-- Level-wise tries: the height used for decoding runs is at most the height. -/
def LevelTrie.Sound (t : LevelTrie) : Prop := t.runsEncoded = true → t.heightWithRuns ≤ t.height

theorem level_encode_sound (t : LevelTrie) (il : Bool) (pad : Nat) :
    Post (t.encodeRuns il pad) fun t' => t'.Sound ∧ t'.height = t.height := by
  unfold LevelTrie.encodeRuns
  refine Post.ite (fun _ => ?_) (fun h0 => ?_)
  · exact Post.bind (Q := fun _ => False) Post.error (fun _ h => h.elim)
  · have h1 : RunSt.Sized t.height { ones := List.replicate t.height [], pos := List.replicate t.height 0 } := by
      simp [RunSt.Sized]
    refine (writeCompress_sized _ _ _ _ h1).bind fun a h => ?_
    obtain ⟨s, b⟩ := a
    obtain ⟨ho, hp⟩ : s.ones.length = t.height ∧ s.pos.length = t.height := h
    have hl : lastNonEmpty s.pos 0 0 + 1 ≤ t.height := by
      rcases lastNonEmpty_le s.pos 0 0 (Nat.le_refl _) with h | h <;> omega
    refine (levelWriteLoop_length _).bind fun vs hv => Post.ok ?_
    have e : vs.length = t.height := by
      rw [hv, List.length_zip, hp]
      cases il
      · simp [ho]
      · simp only [if_true, List.length_append, List.length_take, List.length_replicate, ho]
        omega
    refine ⟨fun _ => ?_, e⟩
    change lastNonEmpty s.pos 0 0 + 1 ≤ vs.length
    omega

theorem levelCtor_sound (S : List Nat) (u : Nat) : Post (levelCtor S u) LevelTrie.Sound := by
  unfold levelCtor
  refine (Post.any _).bind fun h _ => ?_
  refine Post.ite (fun _ => ?_) (fun _ => ?_)
  · exact Post.bind (Q := fun _ => False) Post.error (fun _ h => h.elim)
  · exact (Post.any _).bind fun s _ => Post.ok fun h => by simp at h

/-! ## Fast tries -/

/-- Fast tries: the levels and the bits of a word make up the height of the universe, and words fit their type. -/
def FastTrie.Sound (lg : Nat) (t : FastTrie) : Prop := t.height + lg = t.heightU + 1 ∧ ∀ w ∈ t.lastLevel, w < 2 ^ 2 ^ lg

theorem fastWord_lt {lg : Nat} {S : List Nat} : (m i w : Nat) → w < 2 ^ 2 ^ lg → Post (fastWord lg S m i w) fun w => w < 2 ^ 2 ^ lg
  | 0, _, _, h => Post.ok h
  | m + 1, i, w, h => by
    rw [fastWord]
    refine (Post.any _).bind fun x _ => fastWord_lt m _ _ ?_
    refine Nat.or_lt_two_pow h ?_
    rw [Nat.one_shiftLeft, Nat.one_shiftLeft, Nat.and_two_pow_sub_one_eq_mod]
    exact Nat.pow_lt_pow_right (by omega) (Nat.mod_lt _ (Nat.two_pow_pos _))

theorem fastChild_words {s : FastSt} {c : Option (Nat × Nat × Nat)} : Post (fastChild s c) fun s' => s'.lastLevel = s.lastLevel := by
  cases c with
  | none => exact Post.ok rfl
  | some c => exact (Post.any _).bind fun v _ => Post.ok rfl

theorem fastStep_words {lg height hu l r : Nat} {S : List Nat} {s : FastSt} {q : List (Nat × Nat × Nat)}
    (h : ∀ w ∈ s.lastLevel, w < 2 ^ 2 ^ lg) :
    Post (fastStep lg S height hu s l r q) fun a => ∀ w ∈ a.1.lastLevel, w < 2 ^ 2 ^ lg := by
  unfold fastStep
  refine Post.ite (fun _ => ?_) (fun _ => Post.ite (fun _ => Post.error) fun _ => ?_)
  · refine (fastWord_lt _ _ _ (Nat.two_pow_pos _)).bind fun w hw => Post.ok ?_
    intro x hx
    rcases List.mem_append.1 hx with hx | hx
    · exact h x hx
    · rw [List.mem_singleton.1 hx]; exact hw
  · refine (Post.any _).bind fun a _ => ?_
    obtain ⟨left, right⟩ := a
    refine fastChild_words.bind fun s1 h1 => fastChild_words.bind fun s2 h2 => Post.ok ?_
    have e : (fastLevelEnd s2).lastLevel = s.lastLevel := by
      rw [fastLevelEnd]
      split <;> exact h2.trans h1
    simp only [e]
    exact h

theorem fastLoop_words {lg height hu : Nat} {S : List Nat} : (f : Nat) → (s : FastSt) → (∀ w ∈ s.lastLevel, w < 2 ^ 2 ^ lg) →
    Post (fastLoop lg S height hu f s) fun s => ∀ w ∈ s.lastLevel, w < 2 ^ 2 ^ lg
  | 0, _, _ => Post.error
  | f + 1, s, h => by
    rw [fastLoop]
    split
    · exact Post.ok h
    · refine (fastStep_words h).bind fun a ha => ?_
      obtain ⟨s', b⟩ := a
      exact Post.ite (fun _ => Post.ok ha) fun _ => fastLoop_words f s' ha

theorem fastCtor_sound (lg : Nat) (junk : FastJunk) (S : List Nat) (u : Nat) : Post (fastCtor lg junk S u) (FastTrie.Sound lg) := by
  unfold fastCtor
  refine (Post.any _).bind fun hu _ => ?_
  refine Post.ite (fun _ => ?_) (fun h0 => ?_)
  · exact Post.bind (Q := fun _ => False) Post.error (fun _ h => h.elim)
  · refine (Post.any _).bind fun mx _ => (fastLoop_words _ _ (by simp)).bind fun s hs => Post.ok ⟨?_, hs⟩
    simp only
    omega

theorem getWord_mem {t : FastTrie} {id w : Nat} (h : t.getWord id = .ok w) : w ∈ t.lastLevel := by
  unfold FastTrie.getWord at h
  split at h
  · cases h
  · unfold vGet at h
    split at h
    · injection h with h; subst h; exact List.mem_of_getElem? ‹_›
    · cases h

theorem fastWriteCompress_words {lg : Nat} {n : FNav} (hn : ∀ id w, n.getWord id = .ok w → w < 2 ^ 2 ^ lg) :
    (rem : Nat) → (s : RunSt) → (nl : List Nat) → (level id : Nat) → (∀ w ∈ nl, w < 2 ^ 2 ^ lg) →
    Post (fastWriteCompress lg n rem s nl level id) fun r => ∀ w ∈ r.2.1, w < 2 ^ 2 ^ lg
  | 0, s, nl, level, id, h => by
    rw [fastWriteCompress]
    refine Post.bind (Q := fun w => w < 2 ^ 2 ^ lg) (fun w hw => hn _ _ hw) fun w hw => (Post.any _).bind fun s _ => Post.ok ?_
    intro x hx
    rcases List.mem_append.1 hx with hx | hx
    · exact h x hx
    · rw [List.mem_singleton.1 hx]; exact hw
  | rem + 1, s, nl, level, id, h => by
    rw [fastWriteCompress]
    refine (Post.any _).bind fun node _ => ?_
    refine Post.ite (fun _ => ?_) fun _ => Post.ite (fun _ => ?_) fun _ => Post.ite (fun _ => ?_) fun _ => ?_
    · refine (Post.any _).bind fun l _ => (fastWriteCompress_words hn rem s nl _ _ h).bind fun a h => ?_
      obtain ⟨s, nl, fl⟩ := a
      refine (fastWriteCompress_words hn rem s nl _ _ h).bind fun a h => ?_
      obtain ⟨s, nl, fr⟩ := a
      refine Post.ite (fun _ => ?_) (fun _ => ?_)
      · refine Post.ite (fun _ => Post.ite (fun _ => ?_) fun _ => ?_) fun _ => ?_
        · exact Post.bind (Q := fun _ => False) Post.error (fun _ h => h.elim)
        · refine Post.bind (Q := fun nl => ∀ w ∈ nl, w < 2 ^ 2 ^ lg) (Post.pure fun w hw => h w (List.mem_of_mem_take hw)) fun nl h => ?_
          exact (Post.any _).bind fun s _ => Post.bind (Q := fun a => ∀ w ∈ a.2, w < 2 ^ 2 ^ lg) (Post.pure h) fun a h =>
            (Post.any _).bind fun s _ => Post.ok h
        · refine Post.bind (Q := fun nl => ∀ w ∈ nl, w < 2 ^ 2 ^ lg) (Post.pure h) fun nl h => ?_
          exact (Post.any _).bind fun s _ => Post.bind (Q := fun a => ∀ w ∈ a.2, w < 2 ^ 2 ^ lg) (Post.pure h) fun a h =>
            (Post.any _).bind fun s _ => Post.ok h
      · exact (Post.any _).bind fun s _ => (Post.any _).bind fun s _ =>
          Post.bind (Q := fun a => ∀ w ∈ a.2, w < 2 ^ 2 ^ lg) (Post.pure h) fun a h => (Post.any _).bind fun s _ => Post.ok h
    · exact (Post.any _).bind fun l _ => (Post.any _).bind fun s _ => (fastWriteCompress_words hn rem s nl _ _ h).bind fun a h =>
        (Post.any _).bind fun s _ => (Post.any _).bind fun s _ => Post.ok h
    · exact (Post.any _).bind fun l _ => (Post.any _).bind fun r _ => (Post.any _).bind fun s _ =>
        (fastWriteCompress_words hn rem s nl _ _ h).bind fun a h => (Post.any _).bind fun s _ => Post.ok h
    · exact Post.ok h

theorem fast_encode_sound {lg : Nat} {t : FastTrie} (h : t.Sound lg) (pad : Nat) : Post (t.encodeRuns lg pad) (FastTrie.Sound lg) := by
  unfold FastTrie.encodeRuns
  refine Post.ite (fun _ => ?_) (fun h0 => ?_)
  · exact Post.bind (Q := fun _ => False) Post.error (fun _ h => h.elim)
  · refine (fastWriteCompress_words (fun id w hw => h.2 w (getWord_mem hw)) _ _ _ _ _ (by simp)).bind fun a ha => ?_
    obtain ⟨s, nl, b⟩ := a
    exact (Post.any _).bind fun b _ => Post.ok ⟨h.1, ha⟩

/-! ## Decoding a trie without bits -/

theorem recDecode_empty {n : Nav} (hn : ∀ id ℓ v, n.getNode id ℓ = .ok v → v = 0) :
    (rem : Nat) → (id : Nat) → Post (recDecode n rem [] 0 id 0) fun o => o = [0] ∧ rem = 0 ∨ o = []
  | 0, _ => Post.ok (.inl ⟨rfl, rfl⟩)
  | rem + 1, id => by
    rw [recDecode]
    refine Post.bind (Q := fun v => v = 0) (fun v hv => hn _ _ _ hv) fun v hv => ?_
    subst hv
    exact Post.ok (.inr rfl)

theorem bvGet_nil {pad i : Nat} {b : Bool} (h : bvGet pad [] i = .ok b) : b = false := by
  simp only [bvGet, List.getElem?_nil] at h
  split at h
  · injection h with h; exact h.symm
  · cases h

theorem node2_nil {pad i j v : Nat} (h : (bvGet pad [] i >>= fun b0 => bvGet pad [] j >>= fun b1 => .ok (node2 b0 b1)) = .ok v) :
    v = 0 := by
  obtain ⟨b0, h0, h⟩ := bind_ok h
  obtain ⟨b1, h1, h⟩ := bind_ok h
  rw [bvGet_nil h0, bvGet_nil h1] at h
  injection h with h
  exact h.symm

end CBT
