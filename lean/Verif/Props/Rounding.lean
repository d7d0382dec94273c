import Verif.Model.Rounding
import Verif.Props.Decode
import Verif.Props.Tries
import Verif.Props.Measures
import Verif.Props.BuildCost

/-!
# C81: rounding in `log2` does no harm

Everywhere else the height is computed exactly.
-/

namespace CBT

open Spec

theorem RoundedLog.near {g : Nat → Nat} (hg : RoundedLog g) {x : Nat} (h1 : 1 ≤ x) (h2 : x < 2 ^ 63) :
    Nat.log2 x ≤ g x ∧ g x ≤ Nat.log2 x + 1 := by
  have h0 : x ≠ 0 := by omega
  have hk : Nat.log2 x < 63 := (Nat.log2_lt h0).2 h2
  have ha := hg.mono _ x Nat.one_le_two_pow (Nat.log2_self_le h0) (by omega)
  have hb := hg.mono x _ h1 (Nat.le_of_lt Nat.lt_log2_self) (Nat.pow_le_pow_right (by omega) (show Nat.log2 x + 1 ≤ 63 by omega))
  rw [hg.pow _ (by omega)] at ha hb
  exact ⟨ha, hb⟩

/-- Exact logarithms are among those allowed, and so are those of the nearest doubles. -/
theorem C81_exact_allowed : RoundedLog Nat.log2 where
  mono x y h1 h _ := (Nat.le_log2 (by omega)).2 (Nat.le_trans (Nat.log2_self_le (by omega)) h)
  pow k _ := Nat.log2_two_pow

theorem C81_nearest_allowed : RoundedLog nearestLog where
  mono x y h1 h _ := by
    have hl : Nat.log2 x ≤ Nat.log2 y := (Nat.le_log2 (by omega)).2 (Nat.le_trans (Nat.log2_self_le (by omega)) h)
    rcases Nat.lt_or_ge (Nat.log2 x) (Nat.log2 y) with hlt | hge
    · have hx : nearestLog x ≤ Nat.log2 x + 1 := by unfold nearestLog; split <;> omega
      have hy : Nat.log2 y ≤ nearestLog y := by unfold nearestLog; split <;> omega
      omega
    · have e : Nat.log2 x = Nat.log2 y := by omega
      unfold nearestLog
      rw [e]
      split
      · rename_i hc
        rw [if_pos ⟨hc.1, by omega⟩]
      · split <;> omega
  pow k _ := by
    rw [nearestLog, Nat.log2_two_pow, if_neg]
    rintro ⟨h, h'⟩
    have : 2 ^ (k - 53) < 2 ^ k := Nat.pow_lt_pow_right (by omega) (by omega)
    rw [Nat.pow_succ] at h'
    omega

theorem heightOf_round (k : Nat) : heightOf (2 ^ (k + 1)) = .ok (k + 1) := by
  have hp := Nat.two_pow_pos k
  have h0 : 2 ^ (k + 1) - 1 ≠ 0 := by rw [Nat.pow_succ]; omega
  have h1 : k ≤ Nat.log2 (2 ^ (k + 1) - 1) := (Nat.le_log2 h0).2 (by rw [Nat.pow_succ]; omega)
  have h2 := (Nat.log2_lt h0 (k := k + 1)).2 (by omega)
  rw [heightOf, if_neg (by rw [Nat.pow_succ]; omega), show Nat.log2 (2 ^ (k + 1) - 1) = k by omega]

/-- C81. Whatever the rounding does, the constructors make the trie of a universe that is a power of two. -/
theorem C81_some_universe (g : Nat → Nat) {u : Nat} (hu : 2 ≤ u) :
    (∀ S, flatCtorG g S u = flatCtor S (2 ^ (g (u - 1) + 1))) ∧ (∀ S, levelCtorG g S u = levelCtor S (2 ^ (g (u - 1) + 1))) ∧
    ∀ lg junk S, fastCtorG g lg junk S u = fastCtor lg junk S (2 ^ (g (u - 1) + 1)) := by
  have hh : heightOfG g u = heightOf (2 ^ (g (u - 1) + 1)) := by rw [heightOfG, if_neg (by omega), heightOf_round]
  exact ⟨fun S => by rw [flatCtorG, flatCtor, hh], fun S => by rw [levelCtorG, levelCtor, hh],
    fun lg junk S => by rw [fastCtorG, fastCtor, hh]⟩

/-- With exact logarithms they are the constructors of the other properties. -/
theorem C81_exact : (∀ S u, flatCtorG Nat.log2 S u = flatCtor S u) ∧ (∀ S u, levelCtorG Nat.log2 S u = levelCtor S u) ∧
    (∀ lg junk S u, fastCtorG Nat.log2 lg junk S u = fastCtor lg junk S u) :=
  ⟨fun _ _ => rfl, fun _ _ => rfl, fun _ _ _ _ => rfl⟩

theorem round_valid {g : Nat → Nat} (hg : RoundedLog g) {S : List Nat} {u : Nat} (hS : ValidSet S u) (h2 : 2 ≤ u) (h : u ≤ 2 ^ 62) :
    u ≤ 2 ^ (g (u - 1) + 1) ∧ ValidSet S (2 ^ (g (u - 1) + 1)) := by
  have h0 : u - 1 ≠ 0 := by omega
  have hn := (hg.near (x := u - 1) (by omega) (by omega)).1
  have hl : u - 1 < 2 ^ (Nat.log2 (u - 1) + 1) := Nat.lt_log2_self
  have hp : 2 ^ (Nat.log2 (u - 1) + 1) ≤ 2 ^ (g (u - 1) + 1) := Nat.pow_le_pow_right (by omega) (by omega)
  exact ⟨by omega, hS.ne, hS.increasing, fun x hx => Nat.lt_of_lt_of_le (hS.below x hx) (by omega)⟩

theorem round_bound {g : Nat → Nat} (hg : RoundedLog g) {u k : Nat} (h2 : 2 ≤ u) (hk : k ≤ 62) (h : u ≤ 2 ^ k) : g (u - 1) ≤ k := by
  have := hg.mono (u - 1) (2 ^ k) (by omega) (by omega) (Nat.pow_le_pow_right (by omega) (by omega))
  rwa [hg.pow k (by omega)] at this

/-- C81, flat tries: over a universe of at most `2^61` the trie holds the set, and its height depends on the universe alone. Thus
everything that is shown about plain tries is true of it, whatever the rounding. -/
theorem C81_flat {g : Nat → Nat} (hg : RoundedLog g) {S : List Nat} {u : Nat} (hS : ValidSet S u) (hlen : S.length < 2 ^ 32) (hu : 3 ≤ u)
    (hu' : u ≤ 2 ^ 61) (pad : Nat) : ∃ t, flatCtorG g S u = .ok t ∧ PlainTrie pad (g (u - 1) + 1) S (t.nav pad) ∧
      ∀ out, t.decode pad out = .ok (out ++ S) := by
  obtain ⟨h1, h2⟩ := round_valid hg hS (by omega) (by omega)
  have h3 : 2 ^ (g (u - 1) + 1) ≤ 2 ^ 62 := Nat.pow_le_pow_right (by omega) (by have := round_bound hg (by omega) (by omega) hu'; omega)
  rw [(C81_some_universe g (by omega)).1]
  obtain ⟨t, ht, -⟩ := C01_flat_build_decode h2 hlen (by omega) h3 pad []
  refine ⟨t, ht, .flat h2 hlen (by omega) h3 ht ?_, fun out => ?_⟩
  · obtain ⟨T, hT, -, hh⟩ := flat_built h2 hlen (by omega) h3
    have e := heightOf_round (g (u - 1))
    rw [heightOf, if_neg (by omega)] at e
    have e := Except.ok.inj e
    rw [ht] at hT
    cases hT
    simp only [flatOf]
    omega
  · obtain ⟨t', ht', hd⟩ := C01_flat_build_decode h2 hlen (by omega) h3 pad out
    rw [ht] at ht'
    cases ht'
    exact hd

/-- C81, level-wise tries: likewise over a universe of at most `2^62`. -/
theorem C81_level {g : Nat → Nat} (hg : RoundedLog g) {S : List Nat} {u : Nat} (hS : ValidSet S u) (hlen : S.length < 2 ^ 64) (hu : 2 ≤ u)
    (hu' : u ≤ 2 ^ 62) (il : Bool) (pad : Nat) : ∃ t, levelCtorG g S u = .ok t ∧ PlainTrie pad (g (u - 1) + 1) S (t.nav il pad) ∧
      ∀ out, t.decode il pad out = .ok (out ++ S) := by
  obtain ⟨h1, h2⟩ := round_valid hg hS (by omega) (by omega)
  have h3 : 2 ^ (g (u - 1) + 1) ≤ 2 ^ 63 := Nat.pow_le_pow_right (by omega) (by have := round_bound hg (by omega) (by omega) hu'; omega)
  rw [(C81_some_universe g (by omega)).2.1]
  obtain ⟨t, ht, -⟩ := C02_level_build_decode h2 hlen (by omega) h3 il pad []
  refine ⟨t, ht, .level il h2 hlen (by omega) h3 ht ?_, fun out => ?_⟩
  · obtain ⟨T, hT, -, hh⟩ := level_built h2 hlen (by omega) h3
    have e := heightOf_round (g (u - 1))
    rw [heightOf, if_neg (by omega)] at e
    have e := Except.ok.inj e
    rw [ht] at hT
    cases hT
    rw [levelOf_height]
    omega
  · obtain ⟨t', ht', hd⟩ := C02_level_build_decode h2 hlen (by omega) h3 il pad out
    rw [ht] at ht'
    cases ht'
    exact hd

/-- C81, fast tries. -/
theorem C81_fast {g : Nat → Nat} (hg : RoundedLog g) {lg : Nat} (hlg : 3 ≤ lg ∧ lg ≤ 6) {S : List Nat} {u : Nat} (hS : ValidSet S u)
    (hlen : S.length < 2 ^ 32) (hu : 2 ^ (lg - 1) < u) (hu' : u ≤ 2 ^ 61) (junk : FastJunk) (pad : Nat) :
    ∃ t, fastCtorG g lg junk S u = .ok t ∧ FastPlain lg pad (g (u - 1) + 2 - lg) S (t.nav pad) ∧
      ∀ out, t.decode lg pad out = .ok (out ++ S) := by
  have hpl : 2 ^ 2 ≤ 2 ^ (lg - 1) := Nat.pow_le_pow_right (by omega) (by omega)
  obtain ⟨h1, h2⟩ := round_valid hg hS (by omega) (by omega)
  have h3 : 2 ^ (g (u - 1) + 1) ≤ 2 ^ 62 := Nat.pow_le_pow_right (by omega) (by have := round_bound hg (by omega) (by omega) hu'; omega)
  rw [(C81_some_universe g (by omega)).2.2]
  obtain ⟨t, ht, -⟩ := C03_fast_build_decode hlg h2 hlen (by omega) h3 junk pad []
  refine ⟨t, ht, .mk h2 hlen (by omega) h3 ht ?_, fun out => ?_⟩
  · obtain ⟨T, hT, -, hh⟩ := fast_built hlg h2 hlen (by omega) h3 junk
    have e := heightOf_round (g (u - 1))
    rw [heightOf, if_neg (by omega)] at e
    have e := Except.ok.inj e
    have hl : lg - 1 ≤ Nat.log2 (u - 1) := (Nat.le_log2 (by omega)).2 (by omega)
    have hn := (hg.near (x := u - 1) (by omega) (by omega)).1
    rw [ht] at hT
    cases hT
    simp only [fastOf]
    omega
  · obtain ⟨t', ht', hd⟩ := C03_fast_build_decode hlg h2 hlen (by omega) h3 junk pad out
    rw [ht] at ht'
    cases ht'
    exact hd

/-- The hypotheses hold where rounding does happen: `2^60 - 1` is rounded to `2^60`, and the trie gets 61 levels. -/
example : RoundedLog nearestLog ∧ ValidSet [0, 5, 2 ^ 60 - 1] (2 ^ 60) ∧ nearestLog (2 ^ 60 - 1) = 60 ∧ Nat.log2 (2 ^ 60 - 1) = 59 :=
  ⟨C81_nearest_allowed, by decide, by decide +kernel, by decide +kernel⟩

/-- From `2^61` on it can do harm: with nothing but the conversion to double rounded, the universe `2^62` gets the height 63, and
`max_nodes` does not fit 64 bits. Computed exactly it would be 62. -/
theorem C81_top_negation (S : List Nat) : RoundedLog nearestLog ∧ flatCtorG nearestLog S (2 ^ 62) = .error .conv ∧
    fastCtorG nearestLog 6 ⟨0, 0, 0, false, false⟩ S (2 ^ 62) = .error .conv ∧ heightOf (2 ^ 62) = .ok 62 := by
  have e : heightOfG nearestLog (2 ^ 62) = .ok 63 := by decide +kernel
  refine ⟨C81_nearest_allowed, ?_, ?_, heightOf_round 61⟩
  · rw [flatCtorG, e]; rfl
  · rw [fastCtorG, e]; rfl

/-- Nor does the number of bits of the universe alone decide on the height (C67, where it is computed exactly): tries of one set over
`2^53 + 1` and over `2^54` have different heights, and `Intersect` takes them for different universes. -/
theorem C81_bits_negation {S : List Nat} (hS : ValidSet S (2 ^ 53 + 1)) (hlen : S.length < 2 ^ 32) :
    Nat.log2 (2 ^ 53 + 1 - 1) = Nat.log2 (2 ^ 54 - 1) ∧
    ∃ t t', flatCtorG nearestLog S (2 ^ 53 + 1) = .ok t ∧ flatCtorG nearestLog S (2 ^ 54) = .ok t' ∧ t.height = 54 ∧ t'.height = 55 ∧
      ∀ pad runs parallel env, intersect [t.nav pad, t'.nav pad] runs parallel env = .ok [] := by
  refine ⟨by decide +kernel, ?_⟩
  have hS' : ValidSet S (2 ^ 54) := ⟨hS.ne, hS.increasing, fun x hx => Nat.lt_trans (hS.below x hx) (by omega)⟩
  obtain ⟨t, h1, h2, -⟩ := C81_flat C81_nearest_allowed hS hlen (by omega) (by omega) 0
  obtain ⟨t', h1', h2', -⟩ := C81_flat C81_nearest_allowed hS' hlen (by omega) (by omega) 0
  have e : t.height = 54 := h2.holds.height.trans (by decide +kernel)
  have e' : t'.height = 55 := h2'.holds.height.trans (by decide +kernel)
  refine ⟨t, t', h1, h1', e, e', fun pad runs parallel env => ?_⟩
  rw [intersect, if_pos]
  simp [FlatTrie.nav, e, e']

/-! ## The measures -/

theorem gapLoopG_near {g : Nat → Nat} (hg : ∀ x, 1 ≤ x → x < 2 ^ 64 → Nat.log2 x ≤ g x ∧ g x ≤ Nat.log2 x + 1) : ∀ (l : List Nat) (p a b : Nat),
    a ≤ b → b + 66 * l.length < 2 ^ 64 → gapLoop p a l ≤ gapLoopG g p b l ∧ gapLoopG g p b l + a ≤ gapLoop p a l + b + l.length
  | [], _, a, b, h, _ => by simp only [gapLoop, gapLoopG, List.length_nil]; omega
  | x :: l, p, a, b, h, hb => by
    rw [List.length_cons] at hb
    simp only [gapLoop, gapLoopG, logTerm]
    generalize hd : (if (x + 2 ^ 64 - p + 2 ^ 64 - 1) % 2 ^ 64 = 0 then 1 else (x + 2 ^ 64 - p + 2 ^ 64 - 1) % 2 ^ 64) = d
    have h1 : 1 ≤ d ∧ d < 2 ^ 64 := by
      have := Nat.mod_lt (x + 2 ^ 64 - p + 2 ^ 64 - 1) (show 0 < 2 ^ 64 by omega)
      rw [← hd]
      split <;> omega
    have hl : Nat.log2 d < 64 := (Nat.log2_lt (by omega)).2 h1.2
    obtain ⟨h2, h3⟩ := hg d h1.1 h1.2
    rw [Nat.mod_eq_of_lt (show a + (Nat.log2 d + 1) < 2 ^ 64 by omega), Nat.mod_eq_of_lt (show b + (g d + 1) < 2 ^ 64 by omega)]
    have := gapLoopG_near hg l x (a + (Nat.log2 d + 1)) (b + (g d + 1)) (by omega) (by omega)
    rw [List.length_cons]
    omega

/-- C81, the gap measure of C38: rounding adds at most one bit for each element. -/
theorem C81_gap {g : Nat → Nat} (hg : ∀ x, 1 ≤ x → x < 2 ^ 64 → Nat.log2 x ≤ g x ∧ g x ≤ Nat.log2 x + 1) {v : List Nat} (h0 : v ≠ [])
    (hp : v.Pairwise (· < ·)) (hb : ∀ x ∈ v, x < 2 ^ 64) (hn : v.length < 2 ^ 32) :
    ∃ m, gapMeasureG g v = .ok m ∧ ((Spec.gaps v).map Spec.bits).sum ≤ m ∧ m ≤ ((Spec.gaps v).map Spec.bits).sum + v.length := by
  have hG := (C38_gap h0 hp hb hn).1
  cases v with
  | nil => exact absurd rfl h0
  | cons x xs =>
    rw [List.length_cons] at hn
    rw [gapMeasure, if_neg (by omega)] at hG
    rw [gapMeasureG, if_neg (by omega)]
    refine ⟨_, rfl, ?_⟩
    rw [← Except.ok.inj hG]
    have hx := hb x List.mem_cons_self
    simp only [logTerm]
    generalize hd : (if x = 0 then 1 else x) = d
    have h1 : 1 ≤ d ∧ d < 2 ^ 64 := by rw [← hd]; split <;> omega
    have hl : Nat.log2 d < 64 := (Nat.log2_lt (by omega)).2 h1.2
    obtain ⟨h2, h3⟩ := hg d h1.1 h1.2
    have := gapLoopG_near hg xs x (Nat.log2 d + 1) (g d + 1) (by omega) (by omega)
    rw [List.length_cons]
    omega

/-- The bound is met by a single number. -/
example : gapMeasureG nearestLog [2 ^ 60 - 1] = .ok 61 ∧ ((Spec.gaps [2 ^ 60 - 1]).map Spec.bits).sum = 60 := by decide +kernel

theorem rleLoopG_near {g : Nat → Nat} (hg : ∀ x, 1 ≤ x → x < 2 ^ 64 → Nat.log2 x ≤ g x ∧ g x ≤ Nat.log2 x + 1) : ∀ (l : List Nat) (x r a b : Nat),
    a ≤ b → b + 132 * l.length < 2 ^ 64 → rleLoop x r a l ≤ rleLoopG g x r b l ∧ rleLoopG g x r b l + a ≤ rleLoop x r a l + b + 2 * l.length
  | [], _, _, a, b, h, _ => by simp only [rleLoop, rleLoopG, List.length_nil]; omega
  | y :: l, x, r, a, b, h, hb => by
    rw [List.length_cons] at hb
    have near : ∀ z : Nat, 1 ≤ (if z % 2 ^ 64 = 0 then 1 else z % 2 ^ 64) ∧ (if z % 2 ^ 64 = 0 then 1 else z % 2 ^ 64) < 2 ^ 64 := by
      intro z
      have := Nat.mod_lt z (show 0 < 2 ^ 64 by omega)
      split <;> omega
    have ih := rleLoopG_near hg l
    have ll : ∀ d, 1 ≤ d → d < 2 ^ 64 → Nat.log2 d < 64 := fun d h1 h2 => (Nat.log2_lt (by omega)).2 h2
    simp only [rleLoop, rleLoopG, logTerm]
    generalize hW : (2 : Nat) ^ 64 = W at hg hb near ih ll ⊢
    split
    · have := ih y ((r + 1) % W) a b h (by omega)
      rw [List.length_cons]
      omega
    · have n1 := near ((y + W - x) % W + W - 2)
      have n2 := near (r + W - 1)
      generalize (if ((y + W - x) % W + W - 2) % W = 0 then 1 else ((y + W - x) % W + W - 2) % W) = d1
        at n1 ⊢
      generalize (if (r + W - 1) % W = 0 then 1 else (r + W - 1) % W) = d2 at n2 ⊢
      have l1 : Nat.log2 d1 < 64 := ll d1 n1.1 n1.2
      have l2 : Nat.log2 d2 < 64 := ll d2 n2.1 n2.2
      obtain ⟨h2, h3⟩ := hg d1 n1.1 n1.2
      obtain ⟨h4, h5⟩ := hg d2 n2.1 n2.2
      rw [Nat.mod_eq_of_lt (show a + (Nat.log2 d1 + 1) + (Nat.log2 d2 + 1) < W by omega),
        Nat.mod_eq_of_lt (show b + (g d1 + 1) + (g d2 + 1) < W by omega)]
      have := ih y 1 (a + (Nat.log2 d1 + 1) + (Nat.log2 d2 + 1)) (b + (g d1 + 1) + (g d2 + 1)) (by omega) (by omega)
      rw [List.length_cons]
      generalize rleLoop y 1 (a + (Nat.log2 d1 + 1) + (Nat.log2 d2 + 1)) l = A at this ⊢
      generalize rleLoopG g y 1 (b + (g d1 + 1) + (g d2 + 1)) l = B at this ⊢
      clear hW near ih ll hg
      omega

/-- C81, the run-length measure of C39: rounding adds at most two bits for each element, to whatever vector of fewer than `2^32` numbers. -/
theorem C81_rle {g : Nat → Nat} (hg : ∀ x, 1 ≤ x → x < 2 ^ 64 → Nat.log2 x ≤ g x ∧ g x ≤ Nat.log2 x + 1) {v : List Nat} (h0 : v ≠ [])
    (hn : v.length < 2 ^ 32) :
    ∃ c m, rleMeasure v = .ok c ∧ rleMeasureG g v = .ok m ∧ c ≤ m ∧ m ≤ c + 2 * v.length := by
  cases v with
  | nil => exact absurd rfl h0
  | cons x xs =>
    rw [List.length_cons] at hn
    rw [rleMeasure, rleMeasureG]
    by_cases hx : x = 0
    · have h := rleLoopG_near hg xs x 1 0 0 (Nat.le_refl _) (by omega)
      rw [Nat.add_zero, Nat.add_zero] at h
      rw [if_neg (not_not.2 hx), if_neg (not_not.2 hx)]
      exact ⟨_, _, rfl, rfl, h.1, Nat.le_trans h.2 (Nat.add_le_add_left (Nat.mul_le_mul_left 2 (Nat.le_succ _)) _)⟩
    · have h := rleLoopG_near hg (x :: xs) 0 1 0 0 (Nat.le_refl _) (by rw [List.length_cons]; omega)
      rw [Nat.add_zero, Nat.add_zero] at h
      rw [if_pos hx, if_pos hx]
      exact ⟨_, _, rfl, rfl, h⟩

example : rleMeasureG nearestLog [0, 2 ^ 60 + 1] = .ok 62 ∧ rleMeasure [0, 2 ^ 60 + 1] = .ok 61 := by decide +kernel

end CBT
