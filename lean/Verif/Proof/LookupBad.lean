import Verif.Proof.Lookup
import Verif.Proof.UnreadableSets
import Verif.Proof.UnreadableFlat
import Verif.Proof.UnreadableInter

/-!
# Looking up one number in a trie with unreadable blocks
-/

namespace CBT

open Spec

/-- `y` lies in a block whose node has no children and cannot be read. -/
def OnBad (bad : Nat → Nat → Prop) (b d : Nat) (t : Tr d) (p y : Nat) : Prop :=
  ∃ j k, BareAt b d t j k ∧ bad j (p + k * 2 ^ j) ∧ y / 2 ^ j = k

theorem OnBad.zero {bad : Nat → Nat → Prop} {b : Nat} {t : Tr 0} {p y : Nat} : ¬ OnBad bad b 0 t p y := fun ⟨_, _, h, _⟩ => h

theorem OnBad.bare {bad : Nat → Nat → Prop} {b d : Nat} {t : Tr (d + 1)} {p y : Nat} (h : t.bare = true) (hy : y < 2 ^ (d + 1 + b)) :
    OnBad bad b (d + 1) t p y ↔ bad (d + 1 + b) p := by
  constructor
  · rintro ⟨j, k, h1, h2, h3⟩
    obtain ⟨rfl, rfl⟩ := (bareAt_of_bare h).1 h1
    simpa using h2
  · intro h1
    exact ⟨_, _, (bareAt_of_bare h).2 ⟨rfl, rfl⟩, by simpa using h1, Nat.div_eq_of_lt hy⟩

theorem OnBad.left {bad : Nat → Nat → Prop} {b d : Nat} {t : Tr (d + 1)} {p y : Nat} (h : ¬ t.bare = true) (hy : y < 2 ^ (d + b)) :
    OnBad bad b (d + 1) t p y ↔ ∃ s, t.l = some s ∧ OnBad bad b d s p y := by
  constructor
  · rintro ⟨j, k, h1, h2, h3⟩
    rcases h1 with ⟨h1, _⟩ | ⟨s, hs, h1⟩ | ⟨s, k', hs, rfl, h1⟩
    · exact (h h1).elim
    · exact ⟨s, hs, j, k, h1, h2, h3⟩
    · obtain ⟨_, h5, _⟩ := h1.bounds
      exfalso
      have h6 : y / 2 ^ j < 2 ^ (d + b - j) := by
        rw [Nat.div_lt_iff_lt_mul (Nat.two_pow_pos j), ← Nat.pow_add, Nat.sub_add_cancel h5]
        exact hy
      omega
  · rintro ⟨s, hs, j, k, h1, h2, h3⟩
    exact ⟨j, k, Or.inr (Or.inl ⟨s, hs, h1⟩), h2, h3⟩

theorem OnBad.right {bad : Nat → Nat → Prop} {b d : Nat} {t : Tr (d + 1)} {p y : Nat} (h : ¬ t.bare = true) :
    OnBad bad b (d + 1) t p (2 ^ (d + b) + y) ↔ ∃ s, t.r = some s ∧ OnBad bad b d s (p + 2 ^ (d + b)) y := by
  constructor
  · rintro ⟨j, k, h1, h2, h3⟩
    rcases h1 with ⟨h1, _⟩ | ⟨s, hs, h1⟩ | ⟨s, k', hs, rfl, h1⟩
    · exact (h h1).elim
    · obtain ⟨_, h5, h6⟩ := h1.bounds
      rw [inBlock_shift h5] at h3
      generalize y / 2 ^ j = q at h3
      omega
    · obtain ⟨_, h5, _⟩ := h1.bounds
      rw [inBlock_shift h5] at h3
      refine ⟨s, hs, j, k', h1, ?_, by omega⟩
      rw [Nat.add_mul, ← Nat.pow_add, Nat.sub_add_cancel h5, ← Nat.add_assoc] at h2
      exact h2
  · rintro ⟨s, hs, j, k, h1, h2, h3⟩
    obtain ⟨_, h5, _⟩ := h1.bounds
    refine ⟨j, _, Or.inr (Or.inr ⟨s, k, hs, rfl, h1⟩), ?_, by rw [inBlock_shift h5, h3]⟩
    rw [Nat.add_mul, ← Nat.pow_add, Nat.sub_add_cancel h5, ← Nat.add_assoc]
    exact h2

theorem lookupFrom_bad {n : Nav} {bad : Nat → Nat → Prop} {leaf : Nat → Nat → Nat → Prop} {leafC : Nat → Nat → R Bool} {b x : Nat}
    (hl : ∀ w id ℓ, leaf w id ℓ → leafC id ℓ = .ok (w.testBit (x % 2 ^ b))) : (d ℓ : Nat) → (t : Tr d) → (id p : Nat) →
    RepB n bad leaf b d ℓ t id p →
    (OnBad bad b d t p (x % 2 ^ (d + b)) → lookupFrom n true leafC b x d ℓ id = .error .oob) ∧
    (¬ OnBad bad b d t p (x % 2 ^ (d + b)) → lookupFrom n true leafC b x d ℓ id = .ok (hasR b d t (x % 2 ^ (d + b))))
  | 0, ℓ, t, id, p, h => by
    refine ⟨fun h => (OnBad.zero h).elim, fun _ => ?_⟩
    rw [lookupFrom, hl _ _ _ h, hasR, Nat.zero_add]
  | d + 1, ℓ, t, id, p, h => by
    obtain ⟨h0, h1, h2, h3⟩ := h
    have hd : d + 1 + b = d + b + 1 := by omega
    rw [lookupFrom]
    by_cases hz : t.bare = true
    · rw [OnBad.bare hz (Nat.mod_lt _ (Nat.two_pow_pos _))]
      obtain ⟨e1, e2⟩ := Tr.bare_eq hz
      refine ⟨fun hB => ?_, fun hB => ?_⟩
      · rw [h0 hz hB]
        rfl
      · rw [h1 (fun h => hB h.2), R_bind_ok, if_pos ⟨rfl, node2_eq_zero.2 ⟨by rw [e1]; rfl, by rw [e2]; rfl⟩⟩, hasR_bare hz]
    have hn : node2 t.l.isSome t.r.isSome ≠ 0 := by
      intro e
      rw [node2_eq_zero] at e
      apply hz
      simp only [Tr.bare, Bool.and_eq_true, Option.isNone_iff_eq_none]
      exact ⟨by simpa using e.1, by simpa using e.2⟩
    rw [h1 (fun h => hz h.1), R_bind_ok, if_neg (fun h => hn h.2), hd, node2_bit0, node2_bit1]
    cases hb : x.testBit (d + b) with
    | true =>
      obtain ⟨e1, e2⟩ := mod_of_bit hb
      have e3 : x % 2 ^ (d + b + 1) = 2 ^ (d + b) + x % 2 ^ (d + b) := by omega
      rw [if_pos rfl, hasR, if_neg hz, if_neg e1, e2, e3, OnBad.right hz]
      cases hr : t.r with
      | none =>
        refine ⟨fun ⟨s, hs, _⟩ => (nomatch hs), fun _ => rfl⟩
      | some s =>
        obtain ⟨c, hc, hrep⟩ := h3 s hr
        obtain ⟨i1, i2⟩ := lookupFrom_bad hl d _ _ _ _ hrep
        rw [Option.isSome_some, if_pos rfl, hc, R_bind_ok]
        refine ⟨fun ⟨s', hs, hB⟩ => ?_, fun hB => ?_⟩
        · cases hs
          exact i1 hB
        · rw [i2 (fun h => hB ⟨s, rfl, h⟩)]
          rfl
    | false =>
      obtain ⟨e1, e2⟩ := mod_of_not_bit hb
      rw [if_neg (by simp), hasR, if_neg hz, if_pos e1, e2, OnBad.left hz (by omega)]
      cases hr : t.l with
      | none =>
        refine ⟨fun ⟨s, hs, _⟩ => (nomatch hs), fun _ => rfl⟩
      | some s =>
        obtain ⟨c, hc, hrep, -⟩ := h2 s hr
        obtain ⟨i1, i2⟩ := lookupFrom_bad hl d _ _ _ _ hrep
        rw [Option.isSome_some, if_pos rfl, hc, R_bind_ok]
        refine ⟨fun ⟨s', hs, hB⟩ => ?_, fun hB => ?_⟩
        · cases hs
          exact i1 hB
        · rw [i2 (fun h => hB ⟨s, rfl, h⟩)]
          rfl

theorem HoldsB.lookup {d : Nat} {S : List Nat} {bad : Nat → Nat → Prop} {n : Nav} (h : HoldsB d S bad n) {x : Nat}
    (hx : x < 2 ^ (d + 1)) : ((∃ j, bad j (x / 2 ^ j * 2 ^ j)) → Spec.lookup n true x = .error .oob) ∧
    ((¬ ∃ j, bad j (x / 2 ^ j * 2 ^ j)) → Spec.lookup n true x = .ok (decide (x ∈ S))) := by
  obtain ⟨T, h1, -, h2, h3⟩ := h.tree
  have hiff : OnBad bad 1 d T 0 x ↔ ∃ j, bad j (x / 2 ^ j * 2 ^ j) := by
    constructor
    · rintro ⟨j, k, _, h5, rfl⟩
      rw [Nat.zero_add] at h5
      exact ⟨j, h5⟩
    · rintro ⟨j, hj⟩
      obtain ⟨k, hk, hB⟩ := h3 _ _ hj
      have hk' := Nat.eq_of_mul_eq_mul_right (Nat.two_pow_pos j) hk
      refine ⟨j, k, hB, by rw [Nat.zero_add, ← hk]; exact hj, hk'⟩
  obtain ⟨i1, i2⟩ := lookupFrom_bad (x := x) lookup_leaf d 0 T 0 0 h1
  rw [Nat.mod_eq_of_lt hx, hiff] at i1 i2
  rw [Spec.lookup, h.height, Nat.add_sub_cancel]
  exact ⟨i1, fun hn => by rw [i2 hn, h2 x hx]⟩

end CBT
