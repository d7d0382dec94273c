import Verif.Proof.Inter
import Verif.SpecNav

/-!
# Looking up one number
-/

namespace CBT

open Spec

theorem node2_bit0 (a b : Bool) : (node2 a b).testBit 0 = b := by cases a <;> cases b <;> rfl

theorem node2_bit1 (a b : Bool) : (node2 a b).testBit 1 = a := by cases a <;> cases b <;> rfl

theorem mod_of_bit {x k : Nat} (h : x.testBit k = true) : ¬ x % 2 ^ (k + 1) < 2 ^ k ∧ x % 2 ^ (k + 1) - 2 ^ k = x % 2 ^ k := by
  have h1 : x % 2 ^ (k + 1) = x % 2 ^ k + 2 ^ k := by
    rw [Nat.testBit_eq_decide_div_mod_eq, decide_eq_true_eq] at h
    rw [Nat.mod_pow_succ, h, Nat.mul_one]
  have := Nat.mod_lt x (Nat.two_pow_pos k)
  omega

theorem mod_of_not_bit {x k : Nat} (h : x.testBit k = false) : x % 2 ^ (k + 1) < 2 ^ k ∧ x % 2 ^ (k + 1) = x % 2 ^ k := by
  have h1 : x % 2 ^ (k + 1) = x % 2 ^ k := by
    rw [Nat.testBit_eq_decide_div_mod_eq, decide_eq_false_iff_not] at h
    rw [Nat.mod_pow_succ, show x / 2 ^ k % 2 = 0 by omega, Nat.mul_zero, Nat.add_zero]
  have := Nat.mod_lt x (Nat.two_pow_pos k)
  omega

theorem lookupFrom_runs {n : Nav} {leaf : Nat → Nat → Nat → Prop} {leafC : Nat → Nat → R Bool} {b x : Nat}
    (hl : ∀ w id ℓ, leaf w id ℓ → leafC id ℓ = .ok (w.testBit (x % 2 ^ b))) : (d ℓ : Nat) → (t : Tr d) → (id : Nat) →
    Rep n leaf d ℓ t id → lookupFrom n true leafC b x d ℓ id = .ok (hasR b d t (x % 2 ^ (d + b)))
  | 0, ℓ, t, id, h => by
    rw [lookupFrom, hl _ _ _ h, hasR, Nat.zero_add]
  | d + 1, ℓ, t, id, h => by
    obtain ⟨h1, h2, h3⟩ := h
    rw [lookupFrom, h1, R_bind_ok]
    have hd : d + 1 + b = d + b + 1 := by omega
    rw [hd]
    simp only [node2_bit0, node2_bit1, true_and]
    by_cases hz : t.bare = true
    · obtain ⟨e1, e2⟩ := Tr.bare_eq hz
      rw [if_pos (node2_eq_zero.2 ⟨by rw [e1]; rfl, by rw [e2]; rfl⟩), hasR_bare hz]
    have hz' : t.bare = false := by simpa using hz
    have hn : node2 t.l.isSome t.r.isSome ≠ 0 := by
      intro e
      rw [node2_eq_zero] at e
      apply hz
      simp only [Tr.bare, Bool.and_eq_true, Option.isNone_iff_eq_none]
      exact ⟨by simpa using e.1, by simpa using e.2⟩
    rw [if_neg hn]
    cases hb : x.testBit (d + b) with
    | true =>
      obtain ⟨e1, e2⟩ := mod_of_bit hb
      rw [if_pos rfl, hasR, if_neg hz, if_neg e1, e2]
      cases hr : t.r with
      | none => rfl
      | some s =>
        obtain ⟨c, hc, hrep⟩ := h3 s hr
        rw [Option.isSome_some, if_pos rfl, hc, R_bind_ok, lookupFrom_runs hl d _ _ _ hrep]
        rfl
    | false =>
      obtain ⟨e1, e2⟩ := mod_of_not_bit hb
      rw [if_neg (by simp), hasR, if_neg hz, if_pos e1, e2]
      cases hr : t.l with
      | none => rfl
      | some s =>
        obtain ⟨c, hc, hrep, -⟩ := h2 s hr
        rw [Option.isSome_some, if_pos rfl, hc, R_bind_ok, lookupFrom_runs hl d _ _ _ hrep]
        rfl

theorem lookupFrom_plain {n : Nav} {leaf : Nat → Nat → Nat → Prop} {leafC : Nat → Nat → R Bool} {b x : Nat}
    (hl : ∀ w id ℓ, leaf w id ℓ → leafC id ℓ = .ok (w.testBit (x % 2 ^ b))) : (d ℓ : Nat) → (t : Tr d) → (id : Nat) →
    Rep n leaf d ℓ t id → lookupFrom n false leafC b x d ℓ id = .ok (has b d t (x % 2 ^ (d + b)))
  | 0, ℓ, t, id, h => by
    rw [lookupFrom, hl _ _ _ h, has, Nat.zero_add]
  | d + 1, ℓ, t, id, h => by
    obtain ⟨h1, h2, h3⟩ := h
    rw [lookupFrom, h1, R_bind_ok]
    have hd : d + 1 + b = d + b + 1 := by omega
    rw [hd]
    simp only [node2_bit0, node2_bit1, Bool.false_eq_true, false_and, if_false]
    cases hb : x.testBit (d + b) with
    | true =>
      obtain ⟨e1, e2⟩ := mod_of_bit hb
      rw [if_pos rfl, has, if_neg e1, e2]
      cases hr : t.r with
      | none => rfl
      | some s =>
        obtain ⟨c, hc, hrep⟩ := h3 s hr
        rw [Option.isSome_some, if_pos rfl, hc, R_bind_ok, lookupFrom_plain hl d _ _ _ hrep]
        rfl
    | false =>
      obtain ⟨e1, e2⟩ := mod_of_not_bit hb
      rw [if_neg (by simp), has, if_pos e1, e2]
      cases hr : t.l with
      | none => rfl
      | some s =>
        obtain ⟨c, hc, hrep, -⟩ := h2 s hr
        rw [Option.isSome_some, if_pos rfl, hc, R_bind_ok, lookupFrom_plain hl d _ _ _ hrep]
        rfl

theorem lookup_leaf {n : Nav} {x : Nat} (w id ℓ : Nat) (h : leafF n w id ℓ) :
    (do let v ← n.getNode id ℓ; .ok (v.testBit (1 - x % 2)) : R Bool) = .ok (w.testBit (x % 2 ^ 1)) := by
  rw [h.2.1, R_bind_ok]
  rcases Nat.mod_two_eq_zero_or_one x with e | e
  · rw [Nat.pow_one, e, node2_bit1]
  · rw [Nat.pow_one, e, node2_bit0]

theorem HoldsR.lookup {d : Nat} {S : List Nat} {n : Nav} (h : HoldsR d S n) {x : Nat} (hx : x < 2 ^ (d + 1)) :
    Spec.lookup n true x = .ok (decide (x ∈ S)) := by
  obtain ⟨T, h1, h2⟩ := h.tree
  rw [Spec.lookup, h.height, Nat.add_sub_cancel, lookupFrom_runs lookup_leaf d 0 T 0 h1, Nat.mod_eq_of_lt hx, h2 x hx]

theorem HoldsP.lookup {d : Nat} {S : List Nat} {n : Nav} (h : HoldsP d S n) {x : Nat} (hx : x < 2 ^ (d + 1)) :
    Spec.lookup n false x = .ok (decide (x ∈ S)) := by
  obtain ⟨T, h1, -, h2⟩ := h.tree
  rw [Spec.lookup, h.height, Nat.add_sub_cancel, lookupFrom_plain lookup_leaf d 0 T 0 h1, Nat.mod_eq_of_lt hx, h2 x hx]

theorem fastLookup_leaf {lg : Nat} {n : FNav} {x : Nat} (w id ℓ : Nat) (h : leafW lg n w id ℓ) :
    (do let w ← n.getWord id; .ok (w.testBit (x % 2 ^ lg)) : R Bool) = .ok (w.testBit (x % 2 ^ lg)) := by
  rw [h.2, R_bind_ok]

theorem FHoldsR.lookup {lg d : Nat} {S : List Nat} {n : FNav} (h : FHoldsR lg d S n) {x : Nat} (hx : x < 2 ^ (d + lg)) :
    fastLookup lg n true x = .ok (decide (x ∈ S)) := by
  obtain ⟨T, h1, h2⟩ := h.tree
  rw [fastLookup, h.height, Nat.add_sub_cancel, lookupFrom_runs (leaf := leafW lg n) fastLookup_leaf d 0 T 0 h1,
    Nat.mod_eq_of_lt hx, h2 x hx]

theorem FHoldsP.lookup {lg d : Nat} {S : List Nat} {n : FNav} (h : FHoldsP lg d S n) {x : Nat} (hx : x < 2 ^ (d + lg)) :
    fastLookup lg n false x = .ok (decide (x ∈ S)) := by
  obtain ⟨T, h1, -, h2⟩ := h.tree
  rw [fastLookup, h.height, Nat.add_sub_cancel, lookupFrom_plain (leaf := leafW lg n) fastLookup_leaf d 0 T 0 h1,
    Nat.mod_eq_of_lt hx, h2 x hx]

end CBT
