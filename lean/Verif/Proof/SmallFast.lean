import Verif.Proof.Reach

/-!
# The fast constructor on universes of at most half a word
-/

namespace CBT

theorem scan_post {S : List Nat} {sh : Nat} : (m i left : Nat) → Post (scan S sh m i left) fun a =>
    left ≤ a.1 ∧ a.1 ≤ left + m ∧ (∀ j, a.2 = some j → i ≤ j ∧ j < i + m) ∧ (0 < m → left < a.1 ∨ a.2.isSome)
  | 0, i, left => Post.ok ⟨Nat.le_refl _, by omega, by simp, by omega⟩
  | m + 1, i, left => by
    rw [scan]
    refine (Post.any _).bind fun x _ => Post.ite (fun _ => ?_) fun _ => ?_
    · exact Post.ok ⟨Nat.le_refl _, by simp only; omega, by simp, by simp⟩
    · refine (scan_post m (i + 1) (left + 1)).mono fun a ⟨h1, h2, h3, h4⟩ => ⟨by omega, by omega, fun j hj => ?_, fun _ => ?_⟩
      · have := h3 j hj; omega
      · left; omega

/-- Non-empty ranges. -/
def RangesOk (q : List (Nat × Nat × Nat)) : Prop := ∀ e ∈ q, e.1 ≤ e.2.1 ∧ e.2.1 < 2 ^ 63

theorem fastChild_post {s : FastSt} {c : Option (Nat × Nat × Nat)} (hq : RangesOk s.q)
    (hc : ∀ e, c = some e → e.1 ≤ e.2.1 ∧ e.2.1 < 2 ^ 63) :
    Post (fastChild s c) fun s' => RangesOk s'.q ∧ (s.q ≠ [] ∨ c.isSome → s'.q ≠ []) ∧ s'.level = s.level ∧
      s'.count = s.count ∧ s'.nodesCurr = s.nodesCurr := by
  cases c with
  | none => exact Post.ok ⟨hq, by simp, rfl, rfl, rfl⟩
  | some c =>
    refine (Post.any _).bind fun v _ => Post.ok ⟨?_, by simp, rfl, rfl, rfl⟩
    intro e he
    rcases List.mem_append.1 he with h | h
    · exact hq e h
    · exact hc e (by rw [List.mem_singleton.1 h])

theorem fastLoop_small {lg hu : Nat} {S : List Nat} : (f : Nat) → (s : FastSt) → RangesOk s.q → s.q ≠ [] →
    (1 ≤ s.level ∨ s.count + 1 = s.nodesCurr) → Post (fastLoop lg S 0 hu f s) fun _ => False
  | 0, _, _, _, _ => Post.error
  | f + 1, s, hq, hne, hl => by
    rw [fastLoop]
    split
    · exact (hne ‹_›).elim
    · rename_i l r n q he
      rw [he] at hq
      have hlr : l ≤ r ∧ r < 2 ^ 63 := hq (l, r, n) (by simp)
      have hq' : RangesOk q := fun e h => hq e (List.mem_cons_of_mem _ h)
      have hm : (r + 1) % 2 ^ 64 - l = r + 1 - l := by rw [Nat.mod_eq_of_lt (by omega)]
      have key : Post (fastStep lg S 0 hu s l r q) fun a => RangesOk a.1.q ∧ a.1.q ≠ [] ∧ 1 ≤ a.1.level ∧ a.2 = false := by
        unfold fastStep
        refine Post.ite (fun h => by simp at h) fun _ => Post.ite (fun _ => Post.error) fun _ => ?_
        rw [hm]
        refine (scan_post _ _ _).bind fun a ha => ?_
        obtain ⟨left, right⟩ := a
        obtain ⟨h1, h2, h3, h4⟩ := ha
        simp only at h1 h2 h3 h4
        refine (fastChild_post (s := { s with count := s.count + 1, q := q }) hq' ?_).bind fun s1 ⟨a1, a2, a3, a4, a5⟩ => ?_
        · intro e he
          split at he
          · injection he with he; subst he; simp only; omega
          · cases he
        refine (fastChild_post a1 ?_).bind fun s2 ⟨b1, b2, b3, b4, b5⟩ => ?_
        · intro e he
          rw [Option.map_eq_some_iff] at he
          obtain ⟨i, hi, rfl⟩ := he
          have := h3 i hi
          simp only; omega
        have hne2 : s2.q ≠ [] := by
          apply b2
          rcases h4 (by omega) with h | h
          · left; apply a2; right; rw [if_pos (by omega)]; rfl
          · right; simpa using h
        refine Post.ok ?_
        simp only at a3 a4 a5
        have hlv : 1 ≤ (fastLevelEnd s2).level := by
          rw [fastLevelEnd]
          split
          · simp only; omega
          · rename_i hc
            rcases hl with h | h
            · omega
            · exact (hc (by omega)).elim
        have hqq : (fastLevelEnd s2).q = s2.q := by
          rw [fastLevelEnd]; split <;> rfl
        refine ⟨by rw [hqq]; exact b1, by rw [hqq]; exact hne2, hlv, ?_⟩
        simp only [decide_eq_false_iff_not]
        omega
      refine key.bind fun a ⟨h1, h2, h3, h4⟩ => ?_
      obtain ⟨s', b⟩ := a
      simp only at h4
      subst h4
      exact fastLoop_small f s' h1 h2 (.inl h3)

theorem fastCtor_small {lg u : Nat} (hu : u ≤ 2 ^ (lg - 1)) (S : List Nat) (junk : FastJunk) (t : FastTrie) :
    fastCtor lg junk S u ≠ .ok t := by
  have key : Post (fastCtor lg junk S u) fun _ => False := by
    unfold fastCtor heightOf
    by_cases h1 : u ≤ 1
    · rw [if_pos h1]
      exact Post.bind (Q := fun _ => False) Post.error (fun _ h => h.elim)
    · rw [if_neg h1, R_bind_ok]
      refine Post.ite (fun _ => ?_) (fun h0 => ?_)
      · exact Post.bind (Q := fun _ => False) Post.error (fun _ h => h.elim)
      · have hlog : Nat.log2 (u - 1) < lg - 1 := (Nat.log2_lt (by omega)).2 (by omega)
        have e : Nat.log2 (u - 1) + 1 + 1 - lg = 0 := by omega
        rw [e]
        refine (Post.any _).bind fun mx _ => ?_
        have hr : (S.length % 2 ^ 32 + 2 ^ 32 - 1) % 2 ^ 32 < 2 ^ 63 :=
          Nat.lt_of_lt_of_le (Nat.mod_lt _ (by decide)) (by decide)
        generalize (S.length % 2 ^ 32 + 2 ^ 32 - 1) % 2 ^ 32 = r at hr
        generalize 2 ^ (Nat.log2 (u - 1) + 1) = f
        generalize hs : FastSt.mk _ _ _ _ _ _ _ _ = s
        refine Post.bind (Q := fun _ => False) (fastLoop_small f s ?_ ?_ ?_) fun s hs => hs.elim
        · intro e he
          subst hs
          rw [List.mem_singleton.1 he]
          exact ⟨Nat.zero_le _, hr⟩
        · subst hs; simp
        · subst hs; exact .inr rfl
  intro h
  exact key _ h

end CBT
