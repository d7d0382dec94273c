import Verif.Proof.FlatCollapse

/-!
# What decoding appends, whatever the state of the trie
-/

namespace CBT

/-- `out'` is `out` followed by strictly increasing values of the block `[p, p + 2^k)`. -/
def Appends (out out' : List Nat) (p k : Nat) : Prop :=
  ∃ ys, out' = out ++ ys ∧ ys.Pairwise (· < ·) ∧ ∀ y ∈ ys, p ≤ y ∧ y < p + 2 ^ k

theorem Appends.refl (out : List Nat) (p k : Nat) : Appends out out p k := ⟨[], by simp⟩

theorem Appends.two {o o1 o2 : List Nat} {p k : Nat} (h1 : Appends o o1 p k) (h2 : Appends o1 o2 (p + 2 ^ k) k) :
    Appends o o2 p (k + 1) := by
  obtain ⟨ys, rfl, hs, hb⟩ := h1
  obtain ⟨zs, rfl, hs', hb'⟩ := h2
  have e : 2 ^ (k + 1) = 2 ^ k + 2 ^ k := by rw [Nat.pow_succ]; omega
  refine ⟨ys ++ zs, by simp, List.pairwise_append.2 ⟨hs, hs', fun a ha b hb2 => ?_⟩, fun y hy => ?_⟩
  · have := hb a ha; have := hb' b hb2; omega
  · rcases List.mem_append.1 hy with h | h
    · have := hb y h; omega
    · have := hb' y h; omega

theorem Appends.enum (out : List Nat) (k : Nat) (P : Nat → Bool) (p : Nat) : Appends out (out ++ CBT.enum k P p) p k :=
  ⟨_, rfl, enum_sorted _ _ _, fun y hy => by
    obtain ⟨x, hx, -, rfl⟩ := mem_enum.1 hy
    omega⟩

theorem shl1_of_ok {k s : Nat} (h : shl1 k = .ok s) : k < 64 ∧ s = 2 ^ k := by
  unfold shl1 at h
  split at h
  · injection h with h
    rw [Nat.one_shiftLeft] at h
    exact ⟨by assumption, h.symm⟩
  · cases h

theorem fillRange_appends {p k : Nat} {out out' : List Nat} (hp : 2 ^ k ∣ p) (h : fillRange p k out = .ok out') :
    Appends out out' p k := by
  have hk : k < 64 := by
    obtain ⟨s, hs, -⟩ := bind_ok h
    exact (shl1_of_ok hs).1
  rw [fillRange_ok out hk hp (P := fun _ => true) (fun _ _ => rfl)] at h
  injection h with h
  rw [← h]
  exact Appends.enum _ _ _ _

/-- The two recursive calls of a decoding step. -/
theorem step_appends {H part level : Nat} {out out' : List Nat} {gl gr : R Nat} {F : List Nat → Nat → Nat → R (List Nat)}
    {b0 b1 : Prop} [Decidable b0] [Decidable b1] (hl : level + 1 ≤ H) (hp : 2 ^ (H - level) ∣ part)
    (hF : ∀ out out' part c, 2 ^ (H - (level + 1)) ∣ part → F out part c = .ok out' → Appends out out' part (H - (level + 1)))
    (h : ((if b0 then do let c ← gl; F out part c else pure out) >>= fun out =>
      if b1 then do
        let s ← shl1 (H - level - 1)
        let c ← gr
        F out (part ||| s) c
      else pure out) = .ok out') : Appends out out' part (H - level) := by
  obtain ⟨k, hk⟩ : ∃ k, H - level = k + 1 := ⟨H - level - 1, by omega⟩
  have hk' : H - (level + 1) = k := by omega
  have hk'' : H - level - 1 = k := by omega
  rw [hk] at hp ⊢
  rw [hk'] at hF
  rw [hk''] at h
  obtain ⟨o1, h1, h⟩ := bind_ok h
  have hA : Appends out o1 part k := by
    split at h1
    · obtain ⟨c, -, h1⟩ := bind_ok h1
      exact hF _ _ _ _ (dvd_lo hp) h1
    · injection h1 with h1; subst h1; exact Appends.refl _ _ _
  refine hA.two ?_
  split at h
  · obtain ⟨s, hs, h⟩ := bind_ok h
    obtain ⟨c, -, h⟩ := bind_ok h
    obtain ⟨-, rfl⟩ := shl1_of_ok hs
    rw [or_two_pow hp] at h
    exact hF _ _ _ _ (dvd_hi hp) h
  · injection h with h; subst h; exact Appends.refl _ _ _

theorem recDecode_appends {n : Nav} : (rem : Nat) → (out out' : List Nat) → (part id level : Nat) →
    level + rem ≤ n.height → 2 ^ (n.height - level) ∣ part → recDecode n rem out part id level = .ok out' →
    Appends out out' part (n.height - level)
  | 0, out, out', part, id, level, _, _, h => by
    rw [recDecode] at h
    injection h with h
    have := Nat.two_pow_pos (n.height - level)
    exact ⟨[part], h.symm, by simp, by simp [this]⟩
  | rem + 1, out, out', part, id, level, hl, hp, h => by
    rw [recDecode] at h
    obtain ⟨node, -, h⟩ := bind_ok h
    refine step_appends (F := fun out part c => recDecode n rem out part c (level + 1)) (gl := n.getLeftChild id level)
      (gr := n.getRightChild id level) (b0 := node = 2 ∨ node = 3) (b1 := node = 1 ∨ node = 3) (by omega) hp
      (fun o o' p c hp h => recDecode_appends rem o o' p c (level + 1) (by omega) hp h) ?_
    rw [← h]
    split
    · cases n.getLeftChild id level <;> rfl
    · rfl

theorem runsRecDecode_appends {n : Nav} : (rem : Nat) → (out out' : List Nat) → (part id level : Nat) →
    level + rem ≤ n.height → 2 ^ (n.height - level) ∣ part → runsRecDecode n rem out part id level = .ok out' →
    Appends out out' part (n.height - level)
  | 0, out, out', part, id, level, _, _, h => by
    rw [runsRecDecode] at h
    injection h with h
    have := Nat.two_pow_pos (n.height - level)
    exact ⟨[part], h.symm, by simp, by simp [this]⟩
  | rem + 1, out, out', part, id, level, hl, hp, h => by
    rw [runsRecDecode] at h
    obtain ⟨node, -, h⟩ := bind_ok h
    split at h
    · exact fillRange_appends hp h
    refine step_appends (F := fun out part c => runsRecDecode n rem out part c (level + 1)) (gl := n.getLeftChild id level)
      (gr := n.getRightChild id level) (b0 := node = 2 ∨ node = 3) (b1 := node = 1 ∨ node = 3) (by omega) hp
      (fun o o' p c hp h => runsRecDecode_appends rem o o' p c (level + 1) (by omega) hp h) ?_
    rw [← h]
    split
    · cases n.getLeftChild id level <;> rfl
    · rfl

/-- A decoded word. -/
theorem word_appends {lg part k id : Nat} {n : FNav} {out out' : List Nat} (hlg : lg ≤ 6) (hk : lg ≤ k)
    (hw : ∀ id w, n.getWord id = .ok w → w < 2 ^ 2 ^ lg)
    (h : (n.getWord id >>= fun w => emitWord lg part (2 ^ lg) w out) = .ok out') : Appends out out' part k := by
  obtain ⟨w, hg, h⟩ := bind_ok h
  rw [emitWord_ok hlg out (hw _ _ hg)] at h
  injection h with h
  obtain ⟨ys, e, hs, hb⟩ := Appends.enum out lg w.testBit part
  have := Nat.pow_le_pow_right (n := 2) (by omega) hk
  exact ⟨ys, by rw [← h, e], hs, fun y hy => by have := hb y hy; omega⟩

theorem fastRecDecode_appends {lg hu : Nat} {n : FNav} (hlg : lg ≤ 6) (hw : ∀ id w, n.getWord id = .ok w → w < 2 ^ 2 ^ lg) :
    (rem : Nat) → (out out' : List Nat) → (part id level : Nat) →
    level + rem + lg ≤ hu → 2 ^ (hu - level) ∣ part → fastRecDecode lg hu n rem out part id level = .ok out' →
    Appends out out' part (hu - level)
  | 0, out, out', part, id, level, hl, _, h => by
    rw [fastRecDecode] at h
    exact word_appends hlg (by omega) hw h
  | rem + 1, out, out', part, id, level, hl, hp, h => by
    rw [fastRecDecode] at h
    obtain ⟨node, -, h⟩ := bind_ok h
    refine step_appends (F := fun out part c => fastRecDecode lg hu n rem out part c (level + 1)) (gl := n.getLeftChild id level)
      (gr := n.getRightChild id level) (b0 := node = 2 ∨ node = 3) (b1 := node = 1 ∨ node = 3) (by omega) hp
      (fun o o' p c hp h => fastRecDecode_appends hlg hw rem o o' p c (level + 1) (by omega) hp h) ?_
    rw [← h]
    split
    · cases n.getLeftChild id level <;> rfl
    · rfl

theorem fastRunsRecDecode_appends {lg hu : Nat} {n : FNav} (hlg : lg ≤ 6) (hw : ∀ id w, n.getWord id = .ok w → w < 2 ^ 2 ^ lg) :
    (rem : Nat) → (out out' : List Nat) → (part id level : Nat) →
    level + rem + lg ≤ hu → 2 ^ (hu - level) ∣ part → fastRunsRecDecode lg hu n rem out part id level = .ok out' →
    Appends out out' part (hu - level)
  | 0, out, out', part, id, level, hl, _, h => by
    rw [fastRunsRecDecode] at h
    exact word_appends hlg (by omega) hw h
  | rem + 1, out, out', part, id, level, hl, hp, h => by
    rw [fastRunsRecDecode] at h
    obtain ⟨node, -, h⟩ := bind_ok h
    split at h
    · exact fillRange_appends hp h
    refine step_appends (F := fun out part c => fastRunsRecDecode lg hu n rem out part c (level + 1)) (gl := n.getLeftChild id level)
      (gr := n.getRightChild id level) (b0 := node = 2 ∨ node = 3) (b1 := node = 1 ∨ node = 3) (by omega) hp
      (fun o o' p c hp h => fastRunsRecDecode_appends hlg hw rem o o' p c (level + 1) (by omega) hp h) ?_
    rw [← h]
    split
    · cases n.getLeftChild id level <;> rfl
    · rfl

end CBT
