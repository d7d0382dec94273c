import Verif.Proof.Reach

/-!
# C28: what decoding appends, for every trie the public functions can produce
-/

namespace CBT

/-- Level-wise tries obtained by a constructor and any number of calls of `encodeRuns`, from any vectors whatsoever. -/
inductive LevelReach (il : Bool) : LevelTrie → Prop
  | ctor {S u t} : levelCtor S u = .ok t → LevelReach il t
  | ctor1 {S t} : levelCtor1 S = .ok t → LevelReach il t
  | runs {t t' pad} : LevelReach il t → t.encodeRuns il pad = .ok t' → LevelReach il t'

/-- Fast tries obtained by the constructor with a universe and any number of calls of `encodeRuns`. -/
inductive FastReach (lg : Nat) : FastTrie → Prop
  | ctor {junk S u t} : fastCtor lg junk S u = .ok t → FastReach lg t
  | runs {t t' pad} : FastReach lg t → t.encodeRuns lg pad = .ok t' → FastReach lg t'

/-- C28, flat tries, in any state: decoding keeps the previous contents and appends strictly increasing values below
`2^height`. -/
theorem C28_flat_appends (t : FlatTrie) (pad : Nat) (out out' : List Nat) (h : t.decode pad out = .ok out') :
    ∃ ys, out' = out ++ ys ∧ ys.Pairwise (· < ·) ∧ ∀ y ∈ ys, y < 2 ^ t.height := by
  have key : Appends out out' 0 (t.height - 0) := by
    unfold FlatTrie.decode at h
    split at h
    · split at h
      · injection h with h; subst h; exact Appends.refl _ _ _
      · exact runsRecDecode_appends (n := t.nav pad) _ _ _ _ _ _ (by simp [FlatTrie.nav]) (dvd_zero _) h
    · exact recDecode_appends (n := t.nav pad) _ _ _ _ _ _ (by simp [FlatTrie.nav]) (dvd_zero _) h
  obtain ⟨ys, e, hs, hb⟩ := key
  exact ⟨ys, e, hs, fun y hy => by have := (hb y hy).2; simpa using this⟩

example : (flatCtor [0, 1, 2, 3, 5, 14] 16 >>= fun t => t.encodeRuns 0 >>= fun t => t.encodeRuns 0 >>= fun t => t.decode 64 [9, 9]) =
      .ok [9, 9, 0, 6, 7, 12, 13, 14, 15] ∧
    (flatCtor [5, 1, 3, 14, 2] 16 >>= fun t => t.decode 64 [9, 9]) = .ok [9, 9, 5, 7, 14] := by decide +kernel

/-- C28, level-wise tries. -/
theorem C28_level_appends {il : Bool} {t : LevelTrie} (ht : LevelReach il t) (pad : Nat) (out out' : List Nat)
    (h : t.decode il pad out = .ok out') :
    ∃ ys, out' = out ++ ys ∧ ys.Pairwise (· < ·) ∧ ∀ y ∈ ys, y < 2 ^ t.height := by
  have hr : t.Sound := by
    cases ht with
    | ctor hc => exact levelCtor_sound _ _ _ hc
    | ctor1 hc =>
      unfold levelCtor1 at hc
      split at hc
      · cases hc
      · obtain ⟨_, -, hc⟩ := bind_ok hc
        injection hc with hc
        subst hc
        intro h; simp at h
    | runs _ he => exact (level_encode_sound _ _ _ _ he).1
  have key : Appends out out' 0 (t.height - 0) := by
    unfold LevelTrie.decode at h
    split at h
    · split at h
      · injection h with h; subst h; exact Appends.refl _ _ _
      · exact runsRecDecode_appends (n := t.nav il pad) _ _ _ _ _ _ (by simpa [LevelTrie.nav] using hr ‹_›) (dvd_zero _) h
    · exact recDecode_appends (n := t.nav il pad) _ _ _ _ _ _ (by simp [LevelTrie.nav]) (dvd_zero _) h
  obtain ⟨ys, e, hs, hb⟩ := key
  exact ⟨ys, e, hs, fun y hy => by have := (hb y hy).2; simpa using this⟩

example : (levelCtor [0, 1, 2, 3, 5, 14] 16 >>= fun t => t.encodeRuns true 0 >>= fun t => t.decode true 0 [9, 9]) =
    .ok [9, 9, 0, 1, 2, 3, 5, 14] := by decide +kernel

/-- C28, fast tries. -/
theorem C28_fast_appends {lg : Nat} (hlg : lg ≤ 6) {t : FastTrie} (ht : FastReach lg t) (pad : Nat) (out out' : List Nat)
    (h : t.decode lg pad out = .ok out') :
    ∃ ys, out' = out ++ ys ∧ ys.Pairwise (· < ·) ∧ ∀ y ∈ ys, y < 2 ^ t.heightU := by
  have hr : t.Sound lg := by
    clear h
    induction ht with
    | ctor hc => exact fastCtor_sound _ _ _ _ _ hc
    | runs _ he ih => exact fast_encode_sound ih _ _ he
  have hw : ∀ id w, (t.nav pad).getWord id = .ok w → w < 2 ^ 2 ^ lg := fun id w hw => hr.2 w (getWord_mem hw)
  have hh := hr.1
  have key : Appends out out' 0 (t.heightU - 0) := by
    unfold FastTrie.decode at h
    split at h
    · cases h
    split at h
    · split at h
      · injection h with h; subst h; exact Appends.refl _ _ _
      · exact fastRunsRecDecode_appends hlg hw _ _ _ _ _ _ (by omega) (dvd_zero _) h
    · exact fastRecDecode_appends hlg hw _ _ _ _ _ _ (by omega) (dvd_zero _) h
  obtain ⟨ys, e, hs, hb⟩ := key
  exact ⟨ys, e, hs, fun y hy => by have := (hb y hy).2; simpa using this⟩

example : (fastCtor 3 ⟨0, 0, 0, false, false⟩ [0, 1, 2, 3, 5, 14, 77] 100 >>= fun t => t.encodeRuns 3 0 >>= fun t => t.decode 3 0 [9, 9]) =
    .ok [9, 9, 0, 1, 2, 3, 5, 14, 77] := by decide +kernel

/-! ## C29: constructors without a universe argument -/

/-- C29 (negation), flat tries: the trie constructed without a universe never decodes to the vector, whatever the
uninitialised height and whatever follows the vectors in memory. -/
theorem C29_flat_negation (S : List Nat) (hS : S ≠ []) (junk pad : Nat) : (flatCtor1 junk S >>= fun t => t.decode pad []) ≠ .ok S := by
  intro h
  obtain ⟨t, ht, h⟩ := bind_ok h
  unfold flatCtor1 at ht
  cases hl : S.getLast? with
  | none => rw [hl] at ht; cases ht
  | some u =>
    rw [hl] at ht
    obtain ⟨t0, h0, ht⟩ := bind_ok ht
    injection ht with ht
    subst ht
    unfold FlatTrie.decode at h
    simp only [Bool.false_eq_true, if_false] at h
    have hn : ∀ id ℓ v, (FlatTrie.nav ⟨junk, 0, false, false, [], []⟩ pad).getNode id ℓ = .ok v → v = 0 := by
      intro id ℓ v hv
      simp only [FlatTrie.nav, FlatTrie.getNode] at hv
      split at hv
      · exact node2_nil hv
      · simp only [List.length_nil, Nat.not_lt_zero, if_false] at hv
        exact node2_nil hv
    rcases recDecode_empty hn _ _ _ h with ⟨h, -⟩ | h
    · rw [h] at hl
      injection hl with hl
      subst hl
      cases h0
    · exact hS h

example : ([0, 1, 2, 3] : List Nat) ≠ [] ∧ (flatCtor1 2 [0, 1, 2, 3] >>= fun t => t.decode 64 []) = .ok [] ∧
    (flatCtor1 2 [0, 1, 2, 3] >>= fun t => t.decode 0 []) = .error .oob := by decide +kernel

/-- C29 (negation), level-wise tries. -/
theorem C29_level_negation (S : List Nat) (il : Bool) (pad : Nat) : (levelCtor1 S >>= fun t => t.decode il pad []) ≠ .ok S := by
  intro h
  obtain ⟨t, ht, h⟩ := bind_ok h
  unfold levelCtor1 at ht
  cases hl : S.getLast? with
  | none => rw [hl] at ht; cases ht
  | some u =>
    rw [hl] at ht
    obtain ⟨t0, h0, ht⟩ := bind_ok ht
    injection ht with ht
    subst ht
    have e : S = [0] := by
      injection h with h
      exact h.symm
    rw [e] at hl
    injection hl with hl
    subst hl
    cases h0

example : (levelCtor1 [0, 1, 2, 3] >>= fun t => t.decode false 0 []) = .ok [0] := by decide +kernel

/-- C29 (negation), fast tries: whenever the uninitialised `runs_encoded` happens to be false the trie does not decode to
the vector. -/
theorem C29_fast_negation (lg : Nat) (S : List Nat) (hS : S ≠ []) (junk : FastJunk) (hj : junk.runsEncoded = false) (pad : Nat) :
    (fastCtor1 lg junk S >>= fun t => t.decode lg pad []) ≠ .ok S := by
  intro h
  obtain ⟨t, ht, h⟩ := bind_ok h
  unfold fastCtor1 at ht
  cases hl : S.getLast? with
  | none => rw [hl] at ht; cases ht
  | some u =>
    rw [hl] at ht
    obtain ⟨t0, -, ht⟩ := bind_ok ht
    injection ht with ht
    subst ht
    unfold FastTrie.decode at h
    simp only [fastDefault, hj, Bool.false_eq_true, if_false] at h
    split at h
    · cases h
    cases hr : junk.height - 1 with
    | zero =>
      rw [hr, fastRecDecode] at h
      obtain ⟨w, hw, -⟩ := bind_ok h
      have := getWord_mem hw
      simp at this
    | succ rem =>
      rw [hr, fastRecDecode] at h
      obtain ⟨v, hv, h⟩ := bind_ok h
      have := node2_nil hv
      subst this
      injection h with h
      exact hS h.symm

example : ([0, 1, 2, 3, 9] : List Nat) ≠ [] ∧
    (fastCtor1 3 ⟨1, 0, 3, false, false⟩ [0, 1, 2, 3, 9] >>= fun t => t.decode 3 64 []) = .error .oob ∧
    (fastCtor1 3 ⟨2, 0, 4, false, false⟩ [0, 1, 2, 3, 9] >>= fun t => t.decode 3 64 []) = .ok [] := by decide +kernel

end CBT
