import Verif.Proof.ManyThreads
import Verif.Proof.WorkPlain
import Verif.Props.Flags

/-!
# C91: machines with 65536 or more hardware threads

`Intersect` cuts the work at level `log2(hardware_concurrency())` and counts the pieces in `uint16_t` variables
(src/intersection.cpp:342-343, 355, src/fastTrieIntersection.cpp:365-366, 378). The other theorems on parallel calls ask for fewer than
65536 hardware threads; here is what happens without this.
-/

namespace CBT

open Spec

/-- C91. Let `2^cut` be the largest power of two up to the number of hardware threads, and cut the universe into `2^cut` blocks. A
parallel call on plain tries is right if fewer than 32768 blocks are met by all sets, and with fewer than 131072 hardware threads, if
fewer than 65536 are. -/
theorem C91_counted_partial {pad h : Nat} {sets : List (List Nat)} {Ts : List Nav} (h2 : 2 ≤ h)
    (hTs : List.Forall₂ (PlainTrie pad h) sets Ts) (hne : Ts ≠ []) (hlen : Ts.length ≤ 16) (runs : Bool) (env : Env) (hw : env.hw ≠ 0)
    (hw2 : env.hw < 2 ^ 32)
    (hN : (commonBlocks sets (h - Nat.log2 env.hw) (Nat.log2 env.hw)).length < 2 ^ 15 ∨
      (env.hw < 2 ^ 17 ∧ (commonBlocks sets (h - Nat.log2 env.hw) (Nat.log2 env.hw)).length < 2 ^ 16)) :
    ∃ R, intersect Ts runs true env = .ok R ∧ IsIntersection sets R := by
  have h32 : Nat.log2 env.hw < 32 := (Nat.log2_lt hw).2 hw2
  have h17 : env.hw < 2 ^ 17 → Nat.log2 env.hw < 17 := (Nat.log2_lt hw).2
  have hT : List.Forall₂ (HoldsP (h - 1)) sets Ts := hTs.imp fun _ _ h => h.holds
  have hd : h - 1 ≤ 62 := by
    cases hT with
    | nil => exact (hne rfl).elim
    | cons h _ => exact h.depth
  by_cases hc : Nat.log2 env.hw + 2 ≤ h
  · obtain ⟨d, rfl⟩ : ∃ d, h = d + 1 + Nat.log2 env.hw + 1 := ⟨h - 2 - Nat.log2 env.hw, by omega⟩
    rw [show d + 1 + Nat.log2 env.hw + 1 - Nat.log2 env.hw = d + 1 + 1 by omega] at hN
    exact (intersect_wraps hT hne hlen rfl hw runs).2.2 h32 (by omega) (by omega)
  · have hu := intersect_unfold hne (forall2_imp_right hT fun _ _ h => h.height) runs
    rw [hu true, body_fallback (by omega) (by omega) (by omega), ← hu false]
    cases runs with
    | false => exact intersect_seq_plain hT hne hlen hw
    | true =>
      obtain ⟨R, h1, h3, -⟩ := C74_true_on_plain hTs hne hlen env hw
      exact ⟨R, h1, h3⟩

example : List.Forall₂ (PlainTrie 0 4) [Ex.sF, Ex.sL] [Ex.flat.nav 0, Ex.level.nav true 0] ∧ (⟨4, [], []⟩ : Env).hw < 2 ^ 32 ∧
    (commonBlocks [Ex.sF, Ex.sL] (4 - 2) 2).length < 2 ^ 15 ∧
    intersect [Ex.flat.nav 0, Ex.level.nav true 0] false true ⟨4, [], []⟩ = .ok [1, 2, 3, 5, 14] :=
  ⟨.cons Ex.flat_plain (.cons Ex.level_plain .nil), by decide, by decide +kernel, by decide +kernel⟩

/-- C91, fast tries. -/
theorem C91_fast_counted_partial {lg pad h : Nat} (hlg : 3 ≤ lg ∧ lg ≤ 6) {sets : List (List Nat)} {Ts : List FNav} (h2 : 2 ≤ h)
    (hTs : List.Forall₂ (FastPlain lg pad h) sets Ts) (hne : Ts ≠ []) (hlen : Ts.length ≤ 16) (runs : Bool) (env : Env) (hw : env.hw ≠ 0)
    (hw2 : env.hw < 2 ^ 32)
    (hN : (commonBlocks sets (h + lg - 1 - Nat.log2 env.hw) (Nat.log2 env.hw)).length < 2 ^ 15 ∨
      (env.hw < 2 ^ 17 ∧ (commonBlocks sets (h + lg - 1 - Nat.log2 env.hw) (Nat.log2 env.hw)).length < 2 ^ 16)) :
    ∃ R, fastIntersect lg Ts runs true env = .ok R ∧ IsIntersection sets R := by
  have h32 : Nat.log2 env.hw < 32 := (Nat.log2_lt hw).2 hw2
  have h17 : env.hw < 2 ^ 17 → Nat.log2 env.hw < 17 := (Nat.log2_lt hw).2
  have hT : List.Forall₂ (FHoldsP lg (h - 1)) sets Ts := hTs.imp fun _ _ h => h.holds hlg
  have hd : h - 1 + lg ≤ 62 := by
    cases hT with
    | nil => exact (hne rfl).elim
    | cons h _ => exact h.depth
  by_cases hc : Nat.log2 env.hw + 2 ≤ h
  · obtain ⟨d, rfl⟩ : ∃ d, h = d + 1 + Nat.log2 env.hw + 1 := ⟨h - 2 - Nat.log2 env.hw, by omega⟩
    rw [show d + 1 + Nat.log2 env.hw + 1 + lg - 1 - Nat.log2 env.hw = d + 1 + lg by omega] at hN
    exact (fastIntersect_wraps ⟨by omega, hlg.2⟩ hT hne hlen rfl hw runs).2.2 h32 (by omega) (by omega)
  · have hu := fastIntersect_unfold (lg := lg) hne (forall2_imp_right hT fun _ _ h => h.height) runs
    rw [hu true, body_fallback (by omega) (by omega) (by omega), ← hu false]
    cases runs with
    | false => exact fastIntersect_seq_plain hlg.2 hT hne hlen hw
    | true =>
      obtain ⟨R, h1, h3, -⟩ := C74_fast_true_on_plain hlg hTs hne hlen env hw
      exact ⟨R, h1, h3⟩

example : List.Forall₂ (FastPlain 3 0 3) [Ex.sV, Ex.sW] [Ex.fast.nav 0, Ex.fast2.nav 0] ∧
    (commonBlocks [Ex.sV, Ex.sW] (3 + 3 - 1 - 1) 1).length < 2 ^ 15 ∧
    fastIntersect 3 [Ex.fast.nav 0, Ex.fast2.nav 0] true true ⟨2, [], []⟩ = .ok [4, 17, 31] :=
  ⟨.cons Ex.fast_plain (.cons Ex.fast2_plain .nil), by decide +kernel, by decide +kernel⟩

/-- C91 (`C91_lost_negation` shows that there are such sets). If exactly 65536 blocks are met by all sets, or a multiple of 65536, a parallel call finds nothing. -/
theorem C91_lost {pad h : Nat} {sets : List (List Nat)} {Ts : List Nav} (hTs : List.Forall₂ (PlainTrie pad h) sets Ts)
    (hne : Ts ≠ []) (hlen : Ts.length ≤ 16) (runs : Bool) (env : Env) (hw : env.hw ≠ 0) (hc : Nat.log2 env.hw + 2 ≤ h)
    (hN : 2 ^ 16 ∣ (commonBlocks sets (h - Nat.log2 env.hw) (Nat.log2 env.hw)).length) : intersect Ts runs true env = .ok [] := by
  have hT : List.Forall₂ (HoldsP (h - 1)) sets Ts := hTs.imp fun _ _ h => h.holds
  obtain ⟨d, rfl⟩ : ∃ d, h = d + 1 + Nat.log2 env.hw + 1 := ⟨h - 2 - Nat.log2 env.hw, by omega⟩
  rw [show d + 1 + Nat.log2 env.hw + 1 - Nat.log2 env.hw = d + 1 + 1 by omega] at hN
  exact (intersect_wraps hT hne hlen rfl hw runs).1 (Nat.mod_eq_zero_of_dvd hN)

/-- C91, fast tries. -/
theorem C91_fast_lost {lg pad h : Nat} (hlg : 3 ≤ lg ∧ lg ≤ 6) {sets : List (List Nat)} {Ts : List FNav}
    (hTs : List.Forall₂ (FastPlain lg pad h) sets Ts) (hne : Ts ≠ []) (hlen : Ts.length ≤ 16) (runs : Bool) (env : Env) (hw : env.hw ≠ 0)
    (hc : Nat.log2 env.hw + 2 ≤ h)
    (hN : 2 ^ 16 ∣ (commonBlocks sets (h + lg - 1 - Nat.log2 env.hw) (Nat.log2 env.hw)).length) :
    fastIntersect lg Ts runs true env = .ok [] := by
  have hT : List.Forall₂ (FHoldsP lg (h - 1)) sets Ts := hTs.imp fun _ _ h => h.holds hlg
  obtain ⟨d, rfl⟩ : ∃ d, h = d + 1 + Nat.log2 env.hw + 1 := ⟨h - 2 - Nat.log2 env.hw, by omega⟩
  rw [show d + 1 + Nat.log2 env.hw + 1 + lg - 1 - Nat.log2 env.hw = d + 1 + lg by omega] at hN
  exact (fastIntersect_wraps ⟨by omega, hlg.2⟩ hT hne hlen rfl hw runs).1 (Nat.mod_eq_zero_of_dvd hN)

/-- C91 (`C91_divides_negation` shows that there are such sets). With 131072 or more hardware threads the pieces are always cut once more. If 65536 half-blocks are then common, or a multiple
of 65536, the program divides by zero. -/
theorem C91_divides {pad h : Nat} {sets : List (List Nat)} {Ts : List Nav} (hTs : List.Forall₂ (PlainTrie pad h) sets Ts)
    (hne : Ts ≠ []) (hlen : Ts.length ≤ 16) (runs : Bool) (env : Env) (hw : 2 ^ 17 ≤ env.hw) (hw2 : env.hw < 2 ^ 32)
    (hc : Nat.log2 env.hw + 2 ≤ h)
    (hN : (commonBlocks sets (h - Nat.log2 env.hw) (Nat.log2 env.hw)).length < 2 ^ 16)
    (h0 : (commonBlocks sets (h - (Nat.log2 env.hw + 1)) (Nat.log2 env.hw + 1)).length ≠ 0)
    (h16 : 2 ^ 16 ∣ (commonBlocks sets (h - (Nat.log2 env.hw + 1)) (Nat.log2 env.hw + 1)).length) :
    intersect Ts runs true env = .error .conv := by
  have hT : List.Forall₂ (HoldsP (h - 1)) sets Ts := hTs.imp fun _ _ h => h.holds
  have hw0 : env.hw ≠ 0 := by omega
  have h32 : Nat.log2 env.hw < 32 := (Nat.log2_lt hw0).2 hw2
  have h17 : 17 ≤ Nat.log2 env.hw := (Nat.le_log2 hw0).2 hw
  obtain ⟨d, rfl⟩ : ∃ d, h = d + 1 + Nat.log2 env.hw + 1 := ⟨h - 2 - Nat.log2 env.hw, by omega⟩
  rw [show d + 1 + Nat.log2 env.hw + 1 - Nat.log2 env.hw = d + 1 + 1 by omega] at hN
  rw [show d + 1 + Nat.log2 env.hw + 1 - (Nat.log2 env.hw + 1) = d + 1 by omega] at h0 h16
  refine (intersect_wraps hT hne hlen rfl hw0 runs).2.1 h17 h32 hN ?_ ?_
  · rwa [commonHalves_sum]
  · rw [commonHalves_sum]; exact Nat.mod_eq_zero_of_dvd h16

/-- C91, fast tries. -/
theorem C91_fast_divides {lg pad h : Nat} (hlg : 3 ≤ lg ∧ lg ≤ 6) {sets : List (List Nat)} {Ts : List FNav}
    (hTs : List.Forall₂ (FastPlain lg pad h) sets Ts) (hne : Ts ≠ []) (hlen : Ts.length ≤ 16) (runs : Bool) (env : Env)
    (hw : 2 ^ 17 ≤ env.hw) (hw2 : env.hw < 2 ^ 32) (hc : Nat.log2 env.hw + 2 ≤ h)
    (hN : (commonBlocks sets (h + lg - 1 - Nat.log2 env.hw) (Nat.log2 env.hw)).length < 2 ^ 16)
    (h0 : (commonBlocks sets (h + lg - 1 - (Nat.log2 env.hw + 1)) (Nat.log2 env.hw + 1)).length ≠ 0)
    (h16 : 2 ^ 16 ∣ (commonBlocks sets (h + lg - 1 - (Nat.log2 env.hw + 1)) (Nat.log2 env.hw + 1)).length) :
    fastIntersect lg Ts runs true env = .error .conv := by
  have hT : List.Forall₂ (FHoldsP lg (h - 1)) sets Ts := hTs.imp fun _ _ h => h.holds hlg
  have hw0 : env.hw ≠ 0 := by omega
  have h32 : Nat.log2 env.hw < 32 := (Nat.log2_lt hw0).2 hw2
  have h17 : 17 ≤ Nat.log2 env.hw := (Nat.le_log2 hw0).2 hw
  obtain ⟨d, rfl⟩ : ∃ d, h = d + 1 + Nat.log2 env.hw + 1 := ⟨h - 2 - Nat.log2 env.hw, by omega⟩
  rw [show d + 1 + Nat.log2 env.hw + 1 + lg - 1 - Nat.log2 env.hw = d + lg + 1 by omega] at hN
  rw [show d + 1 + Nat.log2 env.hw + 1 + lg - 1 - (Nat.log2 env.hw + 1) = d + lg by omega] at h0 h16
  have := (fastIntersect_wraps ⟨by omega, hlg.2⟩ hT hne hlen rfl hw0 runs).2.1
  rw [show d + 1 + lg = d + lg + 1 by omega] at this
  refine this h17 h32 hN ?_ ?_
  · rwa [commonHalves_sum]
  · rw [commonHalves_sum]; exact Nat.mod_eq_zero_of_dvd h16

/-! ## Sets for which this happens -/

/-- The numbers from 0 on meet the blocks from 0 on. -/
theorem commonBlocks_range {n j m : Nat} (hn : n ≤ 2 ^ m) : (commonBlocks [List.range (n * 2 ^ j)] j m).length = n := by
  have hm : ∀ k, meetsAll [List.range (n * 2 ^ j)] j k = decide (k < n) := by
    intro k
    rw [Bool.eq_iff_iff, meetsAll_iff, decide_eq_true_eq]
    have hp := Nat.two_pow_pos j
    constructor
    · intro h
      obtain ⟨x, hx, rfl⟩ := h _ List.mem_cons_self
      exact (Nat.div_lt_iff_lt_mul hp).2 (List.mem_range.1 hx)
    · intro h S hS
      rw [List.mem_singleton.1 hS]
      exact ⟨k * 2 ^ j, List.mem_range.2 ((Nat.mul_lt_mul_right hp).2 h), Nat.mul_div_cancel _ hp⟩
  obtain ⟨r, hr⟩ := Nat.exists_eq_add_of_le hn
  rw [commonBlocks, hr, List.range_add, List.filter_append, List.length_append, List.filter_eq_self.2, List.filter_eq_nil_iff.2,
    List.length_range]
  · rfl
  · intro k hk
    obtain ⟨x, -, rfl⟩ := List.mem_map.1 hk
    rw [hm]
    simp
  · intro k hk
    rw [hm]
    exact decide_eq_true (List.mem_range.1 hk)

theorem range_valid {n u : Nat} (hn : n ≠ 0) (hu : n ≤ u) : ValidSet (List.range n) u where
  ne := by simpa using hn
  increasing := List.pairwise_lt_range
  below x hx := by have := List.mem_range.1 hx; omega

theorem isInter_range (n : Nat) : IsIntersection [List.range n] (List.range n) := ⟨List.pairwise_lt_range, fun x => by simp⟩

theorem log2_pow_pred {d : Nat} : Nat.log2 (2 ^ (d + 1) - 1) = d := by
  have := Nat.two_pow_pos d
  have h : 2 ^ (d + 1) = 2 * 2 ^ d := by rw [Nat.pow_succ]; omega
  have h0 : 2 ^ (d + 1) - 1 ≠ 0 := by omega
  have h1 : d ≤ Nat.log2 (2 ^ (d + 1) - 1) := (Nat.le_log2 h0).2 (by omega)
  have h2 : Nat.log2 (2 ^ (d + 1) - 1) < d + 1 := (Nat.log2_lt h0).2 (by omega)
  omega

/-- The first numbers of a universe, as a flat trie. -/
theorem range_flat {n d : Nat} (hn : n ≠ 0) (hu : n ≤ 2 ^ (d + 1)) (hd : 1 ≤ d) (hd' : d < 31) (pad : Nat) :
    ∃ T, PlainTrie pad (d + 1) (List.range n) T := by
  have hp : 2 ^ (d + 1) < 2 ^ 32 := Nat.pow_lt_pow_right (by omega) (by omega)
  have hp' : 2 ^ 2 ≤ 2 ^ (d + 1) := Nat.pow_le_pow_right (by omega) (by omega)
  have hv := range_valid hn hu
  have hl : (List.range n).length < 2 ^ 32 := by rw [List.length_range]; omega
  exact ⟨_, .flat hv hl (by omega) (by omega) (flatCtor_ok hv.ne hl (by omega) log2_pow_pred hd (by omega)) rfl⟩

/-- The first numbers of a universe, as a fast trie. -/
theorem range_fast {lg n d : Nat} (hlg : 3 ≤ lg ∧ lg ≤ 6) (hn : n ≠ 0) (hu : n ≤ 2 ^ (d + lg)) (hd' : d + lg < 32) (junk : FastJunk)
    (pad : Nat) : ∃ T, FastPlain lg pad (d + 1) (List.range n) T := by
  have hp : 2 ^ (d + lg) < 2 ^ 32 := Nat.pow_lt_pow_right (by omega) (by omega)
  have hp' : 2 ^ 3 ≤ 2 ^ (d + lg) := Nat.pow_le_pow_right (by omega) (by omega)
  have hp2 : 2 ^ (lg - 1) < 2 ^ (d + lg) := Nat.pow_lt_pow_right (by omega) (by omega)
  have hv := range_valid hn hu
  have hl : (List.range n).length < 2 ^ 32 := by rw [List.length_range]; omega
  have hlog : Nat.log2 (2 ^ (d + lg) - 1) + 1 = d + lg := by
    have := log2_pow_pred (d := d + lg - 1)
    rw [show d + lg - 1 + 1 = d + lg by omega] at this
    omega
  exact ⟨_, .mk (junk := junk) hv hl hp2 (by omega) (fastCtor_ok hv.ne hl (by omega) hlog (by omega) (by omega)) rfl⟩

/-- C91 is false without a bound on the number of hardware threads: with 65536 of them, intersecting the numbers below 262144 with
themselves gives nothing in parallel and all of them sequentially. -/
theorem C91_lost_negation : ∃ (S : List Nat) (T : Nav), PlainTrie 0 18 S T ∧ S = List.range (2 ^ 18) ∧
    intersect [T] false true ⟨2 ^ 16, [], []⟩ = .ok [] ∧ intersect [T] false false ⟨2 ^ 16, [], []⟩ = .ok S := by
  obtain ⟨T, hT⟩ := range_flat (n := 2 ^ 18) (d := 17) (by omega) (by omega) (by omega) (by omega) 0
  have hTs : List.Forall₂ (PlainTrie 0 18) [List.range (2 ^ 18)] [T] := .cons hT .nil
  have hlog : Nat.log2 (2 ^ 16) = 16 := Nat.log2_two_pow
  refine ⟨_, T, hT, rfl, ?_, ?_⟩
  · refine C91_lost hTs (by simp) (by simp) false _ (by simp) (by rw [hlog]) ?_
    rw [hlog, show 18 - 16 = 2 from rfl, show 2 ^ 18 = 2 ^ 16 * 2 ^ 2 from rfl, commonBlocks_range (Nat.le_refl _)]
  · obtain ⟨R, h1, h2⟩ := C07_seq_intersect_plain hTs (by simp) (by simp) ⟨2 ^ 16, [], []⟩ (by simp)
    rw [h1, IsIntersection.unique h2 (isInter_range _)]

/-- C91, fast tries. -/
theorem C91_fast_lost_negation (junk : FastJunk) : ∃ (S : List Nat) (T : FNav), FastPlain 3 0 18 S T ∧ S = List.range (2 ^ 20) ∧
    fastIntersect 3 [T] false true ⟨2 ^ 16, [], []⟩ = .ok [] ∧ fastIntersect 3 [T] false false ⟨2 ^ 16, [], []⟩ = .ok S := by
  obtain ⟨T, hT⟩ := range_fast (lg := 3) (n := 2 ^ 20) (d := 17) (by omega) (by omega) (by omega) (by omega) junk 0
  have hTs : List.Forall₂ (FastPlain 3 0 18) [List.range (2 ^ 20)] [T] := .cons hT .nil
  have hlog : Nat.log2 (2 ^ 16) = 16 := Nat.log2_two_pow
  refine ⟨_, T, hT, rfl, ?_, ?_⟩
  · refine C91_fast_lost (by omega) hTs (by simp) (by simp) false _ (by simp) (by rw [hlog]) ?_
    rw [hlog, show 18 + 3 - 1 - 16 = 4 from rfl, show 2 ^ 20 = 2 ^ 16 * 2 ^ 4 from rfl, commonBlocks_range (Nat.le_refl _)]
  · obtain ⟨R, h1, h2⟩ := C09_fast_seq_intersect_plain (by omega) hTs (by simp) (by simp) ⟨2 ^ 16, [], []⟩ (by simp)
    rw [h1, IsIntersection.unique h2 (isInter_range _)]

/-- C91. With 131072 hardware threads, intersecting the numbers below 131072 of a universe of 524288 with themselves divides by zero. -/
theorem C91_divides_negation : ∃ (S : List Nat) (T : Nav), PlainTrie 0 19 S T ∧ S = List.range (2 ^ 17) ∧
    intersect [T] false true ⟨2 ^ 17, [], []⟩ = .error .conv ∧ intersect [T] false false ⟨2 ^ 17, [], []⟩ = .ok S := by
  obtain ⟨T, hT⟩ := range_flat (n := 2 ^ 17) (d := 18) (by omega) (by omega) (by omega) (by omega) 0
  have hTs : List.Forall₂ (PlainTrie 0 19) [List.range (2 ^ 17)] [T] := .cons hT .nil
  have hlog : Nat.log2 (2 ^ 17) = 17 := Nat.log2_two_pow
  refine ⟨_, T, hT, rfl, ?_, ?_⟩
  · have e1 : (commonBlocks [List.range (2 ^ 17)] (19 - (17 + 1)) (17 + 1)).length = 2 ^ 16 := by
      rw [show 19 - (17 + 1) = 1 from rfl, show List.range (2 ^ 17) = List.range (2 ^ 16 * 2 ^ 1) from rfl, commonBlocks_range (by omega)]
    have e2 : (commonBlocks [List.range (2 ^ 17)] (19 - 17) 17).length = 2 ^ 15 := by
      rw [show 19 - 17 = 2 from rfl, show List.range (2 ^ 17) = List.range (2 ^ 15 * 2 ^ 2) from rfl, commonBlocks_range (by omega)]
    refine C91_divides hTs (by simp) (by simp) false _ (by simp) (by simp) (by rw [hlog]) ?_ ?_ ?_
    · rw [hlog, e2]; omega
    · rw [hlog, e1]; omega
    · rw [hlog, e1]
  · obtain ⟨R, h1, h2⟩ := C07_seq_intersect_plain hTs (by simp) (by simp) ⟨2 ^ 17, [], []⟩ (by simp)
    rw [h1, IsIntersection.unique h2 (isInter_range _)]

end CBT
