import Verif.Proof.UnreadableInter
import Verif.Proof.Decode

/-!
# Decoding tries some nodes of which cannot be read
-/

namespace CBT

/-- Some node of the trie, whose block starts at `p`, cannot be read. -/
def BadIn (bad : Nat → Nat → Prop) : (d : Nat) → Tr d → (p : Nat) → Prop
  | 0, _, _ => False
  | d + 1, t, p => t.bare = true ∧ bad (d + 1 + 1) p ∨ (∃ s, t.l = some s ∧ BadIn bad d s p) ∨
    ∃ s, t.r = some s ∧ BadIn bad d s (p + 2 ^ (d + 1))

theorem badIn_iff {bad : Nat → Nat → Prop} : (d : Nat) → (t : Tr d) → (p : Nat) →
    (BadIn bad d t p ↔ ∃ j k, bad j (p + k * 2 ^ j) ∧ BareAt 1 d t j k)
  | 0, _, _ => by simp [BadIn, BareAt]
  | d + 1, t, p => by
    rw [BadIn]
    have ihl := fun s => badIn_iff (bad := bad) d s p
    have ihr := fun s => badIn_iff (bad := bad) d s (p + 2 ^ (d + 1))
    simp only [ihl, ihr]
    have shift : ∀ j k, j ≤ d + 1 → p + 2 ^ (d + 1) + k * 2 ^ j = p + (2 ^ (d + 1 - j) + k) * 2 ^ j := by
      intro j k h
      rw [Nat.add_mul, ← Nat.pow_add, Nat.sub_add_cancel h, Nat.add_assoc]
    constructor
    · rintro (⟨h1, h2⟩ | ⟨s, h1, j, k, h2, h3⟩ | ⟨s, h1, j, k, h2, h3⟩)
      · exact ⟨d + 1 + 1, 0, by rwa [Nat.zero_mul, Nat.add_zero p], .inl ⟨h1, rfl, rfl⟩⟩
      · exact ⟨j, k, h2, .inr (.inl ⟨s, h1, h3⟩)⟩
      · have hb := h3.bounds
        exact ⟨j, 2 ^ (d + 1 - j) + k, by rwa [← shift j k hb.2.1], .inr (.inr ⟨s, k, h1, rfl, h3⟩)⟩
    · rintro ⟨j, k, h, ⟨h1, rfl, rfl⟩ | ⟨s, h1, h3⟩ | ⟨s, k', h1, rfl, h3⟩⟩
      · rw [Nat.zero_mul, Nat.add_zero p] at h
        exact .inl ⟨h1, h⟩
      · exact .inr (.inl ⟨s, h1, j, k, h, h3⟩)
      · have hb := h3.bounds
        exact .inr (.inr ⟨s, h1, j, k', by rwa [shift j k' hb.2.1], h3⟩)

theorem RepB.toRep {n : Nav} {bad : Nat → Nat → Prop} {leaf : Nat → Nat → Nat → Prop} : ∀ {d ℓ : Nat} {t : Tr d} {id p : Nat},
    RepB n bad leaf 1 d ℓ t id p → ¬ BadIn bad d t p → Rep n leaf d ℓ t id
  | 0, _, _, _, _, h, _ => h
  | d + 1, ℓ, t, id, p, h, hb => by
    refine ⟨h.2.1 fun h => hb (.inl h), fun s hs => ?_, fun s' hs' => ?_⟩
    · obtain ⟨c, h1, h2, h3⟩ := h.2.2.1 s hs
      exact ⟨c, h1, h2.toRep fun h => hb (.inr (.inl ⟨s, hs, h⟩)), fun s' hs' =>
        (h3 s' hs').toRep fun h => hb (.inr (.inr ⟨s', hs', h⟩))⟩
    · obtain ⟨c, h1, h2⟩ := h.2.2.2 s' hs'
      exact ⟨c, h1, h2.toRep fun h => hb (.inr (.inr ⟨s', hs', h⟩))⟩

theorem runsRecDecode_bad {n : Nav} {bad : Nat → Nat → Prop} (hh : n.height < 64) : ∀ (d ℓ : Nat) (t : Tr d) (id part : Nat) (out : List Nat),
    RepB n bad (leafF n) 1 d ℓ t id part → n.height = ℓ + d + 1 → 2 ^ (d + 1) ∣ part → BadIn bad d t part →
    runsRecDecode n (d + 1) out part id ℓ = .error .oob := by
  intro d
  induction d with
  | zero => intro ℓ t id part out _ _ _ h; exact h.elim
  | succ d ih =>
    intro ℓ t id part out hr hℓ hd hbad
    cases hb : t.bare with
    | true =>
      obtain ⟨e1, e2⟩ := Tr.bare_eq hb
      rcases hbad with ⟨-, h⟩ | ⟨s, h, -⟩ | ⟨s, h, -⟩
      · rw [runsRecDecode, hr.1 hb h]; rfl
      · rw [e1] at h; cases h
      · rw [e2] at h; cases h
    | false =>
      have hn := hr.2.1 fun h => by rw [hb] at h; exact absurd h.1 (by decide)
      have hs : shl1 (n.height - ℓ - 1) = .ok (2 ^ (d + 1)) := by
        rw [hℓ, show ℓ + (d + 1) + 1 - ℓ - 1 = d + 1 by omega]; exact shl1_ok (by omega)
      have ho : part ||| 2 ^ (d + 1) = part + 2 ^ (d + 1) := or_two_pow hd
      have hab : (t.l.isSome || t.r.isSome) = true := by
        revert hb; unfold Tr.bare; cases t.l <;> cases t.r <;> simp
      rw [runsRecDecode_step hn hab hs, ho]
      have right : ∀ out', (∃ s, t.r = some s ∧ BadIn bad d s (part + 2 ^ (d + 1))) → (if t.r.isSome = true then (do
          let c ← n.getRightChild id ℓ
          runsRecDecode n (d + 1) out' (part + 2 ^ (d + 1)) c (ℓ + 1)) else pure out') = .error .oob := by
        rintro out' ⟨s', h2, h⟩
        obtain ⟨c', hc', hR'⟩ := hr.2.2.2 s' h2
        rw [h2, Option.isSome_some, if_pos rfl, hc', R_bind_ok]
        exact ih (ℓ + 1) s' c' _ out' hR' (by omega) (dvd_hi hd) h
      cases h1 : t.l with
      | none =>
        rcases hbad with ⟨h, -⟩ | ⟨s, h, -⟩ | h
        · rw [hb] at h; cases h
        · rw [h1] at h; cases h
        · simp only [Option.isSome_none, Bool.false_eq_true, if_false]
          exact right out h
      | some s =>
        obtain ⟨c, hc, hR, _⟩ := hr.2.2.1 s h1
        simp only [Option.isSome_some, if_true, hc, R_bind_ok]
        by_cases hl : BadIn bad d s part
        · rw [ih (ℓ + 1) s c part out hR (by omega) (dvd_lo hd) hl]; rfl
        · rw [runsRecDecode_rep hh d d (ℓ + 1) s c part out (hR.toRep hl) (by omega) (dvd_lo hd) (Stops.refl _ _), R_bind_ok]
          refine right _ ?_
          rcases hbad with ⟨h, -⟩ | ⟨s', h, h'⟩ | h
          · rw [hb] at h; cases h
          · rw [h1] at h; cases h; exact (hl h').elim
          · exact h

/-- Decoding a run-encoded trie: the set, or out of bounds. -/
theorem HoldsB.decode {d : Nat} {S : List Nat} {bad : Nat → Nat → Prop} {n : Nav} (H : HoldsB d S bad n) (hS : S.Pairwise (· < ·))
    (out : List Nat) : ((∀ j x, ¬ bad j x) → runsRecDecode n (d + 1) out 0 0 0 = .ok (out ++ S)) ∧
      ((∃ j x, bad j x) → runsRecDecode n (d + 1) out 0 0 0 = .error .oob) := by
  obtain ⟨T, h1, h2, h3, h4⟩ := H.tree
  have hh : n.height < 64 := by have := H.height; have := H.depth; omega
  constructor
  · intro h
    have : ¬ BadIn bad d T 0 := by
      rw [badIn_iff]
      rintro ⟨j, k, h', -⟩
      exact h _ _ h'
    rw [runsRecDecode_rep hh d d 0 T 0 0 out (h1.toRep this) (by rw [H.height]; omega) (dvd_zero _) (Stops.refl _ _), h3.enum hS H.below]
  · rintro ⟨j, x, h⟩
    refine runsRecDecode_bad hh d 0 T 0 0 out h1 (by rw [H.height]; omega) (dvd_zero _) ((badIn_iff _ _ _).2 ?_)
    obtain ⟨k, rfl, hk⟩ := h4 j x h
    exact ⟨j, k, by rwa [Nat.zero_add], hk⟩

end CBT
