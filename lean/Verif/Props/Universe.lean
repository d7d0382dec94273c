import Verif.Props.Decode
import Verif.Props.Small

/-!
# C86: the universes that constructors take
-/

namespace CBT

open Spec

theorem log2_large {u k : Nat} (h : 2 ^ k < u) : k ≤ Nat.log2 (u - 1) := by
  have := Nat.two_pow_pos k
  exact (Nat.le_log2 (by omega)).2 (by omega)

/-- C86, flat tries: no vector has a trie over a universe of more than `2^62`. -/
theorem C86_flat_large (S : List Nat) {u : Nat} (hu : 2 ^ 62 < u) : flatCtor S u = .error .conv := by
  have h := log2_large hu
  rw [flatCtor, heightOf, if_neg (by omega), R_bind_ok, maxNodes, if_neg (by omega)]
  rfl

/-- C86, flat tries: exactly with the universes from 3 to `2^62` can a set be built and decoded. -/
theorem C86_flat {S : List Nat} {u : Nat} (hS : ValidSet S u) (hlen : S.length < 2 ^ 32) (pad : Nat) (out : List Nat) :
    (flatCtor S u >>= fun t => t.decode pad out) = .ok (out ++ S) ↔ 3 ≤ u ∧ u ≤ 2 ^ 62 := by
  constructor
  · intro h
    obtain ⟨t, hc, hd⟩ := bind_ok h
    refine ⟨?_, ?_⟩
    · by_contra hlt
      have : u = 0 ∨ u = 1 ∨ u = 2 := by omega
      rcases this with rfl | rfl | rfl
      · rw [flatCtor] at hc; cases hc
      · rw [flatCtor] at hc; cases hc
      · obtain ⟨t', hc', -, hd', -⟩ := C32_flat_negation hS pad
        rw [hc] at hc'
        cases hc'
        rw [hd'] at hd
        cases hd
    · by_contra hlt
      rw [C86_flat_large S (by omega)] at hc
      cases hc
  · rintro ⟨h1, h2⟩
    obtain ⟨t, hc, hd⟩ := C01_flat_build_decode hS hlen h1 h2 pad out
    rw [hc, R_bind_ok, hd]

/-- C86, level-wise tries: no vector has a trie over a universe of more than `2^63`. -/
theorem C86_level_large (S : List Nat) {u : Nat} (hu : 2 ^ 63 < u) : levelCtor S u = .error .conv := by
  have h := log2_large hu
  rw [levelCtor, heightOf, if_neg (by omega), R_bind_ok, if_pos (by omega)]
  rfl

/-- C86, level-wise tries: from 2 to `2^63`. -/
theorem C86_level {S : List Nat} {u : Nat} (hS : ValidSet S u) (hlen : S.length < 2 ^ 64) (il : Bool) (pad : Nat) (out : List Nat) :
    (levelCtor S u >>= fun t => t.decode il pad out) = .ok (out ++ S) ↔ 2 ≤ u ∧ u ≤ 2 ^ 63 := by
  constructor
  · intro h
    obtain ⟨t, hc, hd⟩ := bind_ok h
    refine ⟨?_, ?_⟩
    · by_contra hlt
      rw [levelCtor, heightOf, if_pos (by omega)] at hc
      cases hc
    · by_contra hlt
      rw [C86_level_large S (by omega)] at hc
      cases hc
  · rintro ⟨h1, h2⟩
    obtain ⟨t, hc, hd⟩ := C02_level_build_decode hS hlen h1 h2 il pad out
    rw [hc, R_bind_ok, hd]

/-- C86, fast tries: no vector has a trie over a universe of more than `2^62`. -/
theorem C86_fast_large {lg : Nat} (hlg : lg ≤ 6) (junk : FastJunk) (S : List Nat) {u : Nat} (hu : 2 ^ 62 < u) :
    fastCtor lg junk S u = .error .conv := by
  have h := log2_large hu
  rw [fastCtor, heightOf, if_neg (by omega), R_bind_ok, if_neg (by omega), maxNodes, if_neg (by omega)]
  rfl

/-- C86, fast tries: more than half the number of bits of a word, up to `2^62`. -/
theorem C86_fast {lg : Nat} (hlg : 3 ≤ lg ∧ lg ≤ 6) {S : List Nat} {u : Nat} (hS : ValidSet S u) (hlen : S.length < 2 ^ 32)
    (junk : FastJunk) (pad : Nat) (out : List Nat) :
    (fastCtor lg junk S u >>= fun t => t.decode lg pad out) = .ok (out ++ S) ↔ 2 ^ (lg - 1) < u ∧ u ≤ 2 ^ 62 := by
  constructor
  · intro h
    obtain ⟨t, hc, hd⟩ := bind_ok h
    refine ⟨?_, ?_⟩
    · by_contra hlt
      exact C32_fast_ctor_negation (by omega) S junk t hc
    · by_contra hlt
      rw [C86_fast_large hlg.2 junk S (by omega)] at hc
      cases hc
  · rintro ⟨h1, h2⟩
    obtain ⟨t, hc, hd⟩ := C03_fast_build_decode hlg hS hlen h1 h2 junk pad out
    rw [hc, R_bind_ok, hd]

/-- Sets over universes on both sides of the limits. -/
example : ValidSet [1] 2 ∧ ValidSet [1] 3 ∧ ValidSet [2 ^ 62] (2 ^ 62 + 1) ∧ ValidSet [2 ^ 63] (2 ^ 63 + 1) ∧ ValidSet [3] 4 ∧ ValidSet [3] 5 ∧
    (flatCtor [1] 2 >>= fun t => t.decode 64 []) = .error .oob ∧ (flatCtor [1] 3 >>= fun t => t.decode 0 []) = .ok [1] ∧
    flatCtor [2 ^ 62] (2 ^ 62 + 1) = .error .conv ∧ levelCtor [2 ^ 63] (2 ^ 63 + 1) = .error .conv ∧ levelCtor [0] 1 = .error .conv ∧
    fastCtor 3 Ex.junk [3] 4 = .error .shift ∧ (fastCtor 3 Ex.junk [3] 5 >>= fun t => t.decode 3 0 []) = .ok [3] := by decide +kernel

end CBT
