import Verif.Proof.RunsWrite

/-!
# When pruning removes all leaves, and when it removes nothing
-/

namespace CBT

theorem sameBlock_lt {k m x y : Nat} (h : y / 2 ^ k = x / 2 ^ k) (hkm : k ≤ m) (hx : x < 2 ^ m) : y < 2 ^ m := by
  obtain ⟨j, rfl⟩ : ∃ j, m = k + j := ⟨m - k, by omega⟩
  rw [Nat.pow_add] at hx ⊢
  have hp := Nat.two_pow_pos k
  have : x / 2 ^ k < 2 ^ j := Nat.div_lt_of_lt_mul hx
  rw [← h] at this
  exact (Nat.div_lt_iff_lt_mul hp).1 this |>.trans_eq (Nat.mul_comm _ _)

theorem sameBlock_ge {k m x y : Nat} (h : y / 2 ^ k = x / 2 ^ k) (hkm : k ≤ m) (hx : 2 ^ m ≤ x) : 2 ^ m ≤ y := by
  by_contra hc
  have := sameBlock_lt h.symm hkm (by omega : y < 2 ^ m)
  omega

theorem sameBlock_add {k m x y : Nat} (hkm : k ≤ m) : (2 ^ m + y) / 2 ^ k = (2 ^ m + x) / 2 ^ k ↔ y / 2 ^ k = x / 2 ^ k := by
  obtain ⟨j, rfl⟩ : ∃ j, m = k + j := ⟨m - k, by omega⟩
  have hp := Nat.two_pow_pos k
  rw [Nat.pow_add, Nat.mul_add_div hp, Nat.mul_add_div hp]
  omega

theorem pow_split (d b : Nat) : 2 ^ (d + 1 + b) = 2 ^ (d + b) + 2 ^ (d + b) := by
  rw [show d + 1 + b = (d + b) + 1 by omega, Nat.pow_succ]; omega

/-- Without leaves left, every block of `2^(b+1)` numbers that has a member is full. -/
theorem prune_no_leaves {b : Nat} : (d : Nat) → (T : Tr d) → leaves d [prune b d T] = [] →
    ∀ x y, x < 2 ^ (d + b) → y / 2 ^ (b + 1) = x / 2 ^ (b + 1) → has b d T x = true → has b d T y = true
  | 0, T, h, _, _, _, _, _ => by simp [leaves] at h
  | d + 1, T, h, x, y, hx, hy, hT => by
    have hp := pow_split d b
    have hy' := sameBlock_lt hy (by omega : b + 1 ≤ d + 1 + b) hx
    cases hf : full b (d + 1) T with
    | true => exact full_has hf y hy'
    | false =>
      rw [prune_not_full hf] at h
      have hl : ∀ s, T.l = some s → leaves d [prune b d s] = [] := by
        intro s hs
        simp only [leaves, kids, kidsOf, List.flatMap_cons, List.flatMap_nil, List.append_nil, Tr.l_mk, Tr.r_mk, hs,
          Option.map_some, Option.toList_some, leaves_append, List.append_eq_nil_iff] at h
        exact h.1
      have hr : ∀ s, T.r = some s → leaves d [prune b d s] = [] := by
        intro s hs
        simp only [leaves, kids, kidsOf, List.flatMap_cons, List.flatMap_nil, List.append_nil, Tr.l_mk, Tr.r_mk, hs,
          Option.map_some, Option.toList_some, leaves_append, List.append_eq_nil_iff] at h
        exact h.2
      have hd : ∀ s : Tr d, leaves d [prune b d s] = [] → 1 ≤ d := by
        intro s hs
        cases d with
        | zero => simp [leaves] at hs
        | succ d => omega
      simp only [has] at hT ⊢
      by_cases hlt : x < 2 ^ (d + b)
      · rw [if_pos hlt] at hT
        cases hs : T.l with
        | none => rw [hs] at hT; simp at hT
        | some s =>
          rw [hs] at hT
          have h1 := hd s (hl s hs)
          rw [if_pos (sameBlock_lt hy (by omega) hlt)]
          exact prune_no_leaves d s (hl s hs) x y hlt hy hT
      · rw [if_neg hlt] at hT
        cases hs : T.r with
        | none => rw [hs] at hT; simp at hT
        | some s =>
          rw [hs] at hT
          have h1 := hd s (hr s hs)
          have hge := sameBlock_ge hy (by omega : b + 1 ≤ d + b) (by omega)
          rw [if_neg (by omega)]
          refine prune_no_leaves d s (hr s hs) (x - 2 ^ (d + b)) (y - 2 ^ (d + b)) (by omega) ?_ hT
          rw [← sameBlock_add (by omega : b + 1 ≤ d + b), Nat.add_sub_cancel' hge, Nat.add_sub_cancel' (by omega)]
          exact hy

/-- Without full blocks of `2^(b+1)` numbers nothing is pruned. -/
theorem prune_id {b : Nat} : (d : Nat) → (T : Tr d) →
    (∀ x < 2 ^ (d + b), has b d T x = true → ∃ y, y / 2 ^ (b + 1) = x / 2 ^ (b + 1) ∧ has b d T y = false) →
    prune b d T = T
  | 0, T, _ => rfl
  | d + 1, T, h => by
    have hp := pow_split d b
    have hpos := Nat.two_pow_pos (d + b)
    have hf : full b (d + 1) T = false := by
      by_contra hc
      have hc : full b (d + 1) T = true := by simpa using hc
      obtain ⟨y, hy, hn⟩ := h 0 (by omega) (full_has hc 0 (by omega))
      have := full_has hc y (sameBlock_lt hy (by omega : b + 1 ≤ d + 1 + b) (by omega))
      rw [hn] at this; simp at this
    have hl : T.l.map (prune b d) = T.l := by
      cases hs : T.l with
      | none => rfl
      | some s =>
        rw [Option.map_some]
        congr 1
        cases d with
        | zero => rfl
        | succ d =>
          refine prune_id (d + 1) s fun x hx hsx => ?_
          obtain ⟨y, hy, hn⟩ := h x (by omega) (by simp only [has]; rw [if_pos hx, hs]; exact hsx)
          refine ⟨y, hy, ?_⟩
          have := sameBlock_lt hy (by omega : b + 1 ≤ d + 1 + b) hx
          simp only [has] at hn
          rw [if_pos this, hs] at hn
          exact hn
    have hr : T.r.map (prune b d) = T.r := by
      cases hs : T.r with
      | none => rfl
      | some s =>
        rw [Option.map_some]
        congr 1
        cases d with
        | zero => rfl
        | succ d =>
          refine prune_id (d + 1) s fun x hx hsx => ?_
          obtain ⟨y, hy, hn⟩ := h (2 ^ (d + 1 + b) + x) (by omega) (by rw [has_hi, hs]; exact hsx)
          have hge := sameBlock_ge hy (by omega : b + 1 ≤ d + 1 + b) (by omega)
          refine ⟨y - 2 ^ (d + 1 + b), ?_, ?_⟩
          · rw [← sameBlock_add (by omega : b + 1 ≤ d + 1 + b), Nat.add_sub_cancel' hge]; exact hy
          · simp only [has] at hn
            rw [if_neg (by omega), hs] at hn
            exact hn
    rw [prune_not_full hf, hl, hr, Tr.eta]

end CBT
