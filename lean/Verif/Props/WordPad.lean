import Verif.Props.UnreadablePar
import Verif.Props.Space
import Verif.Proof.Arrays

/-!
# C84: run-encoded flat tries when memory is allocated in words

`sdsl` allocates a bit vector of `n` bits in words of 64 bits, `n / 64 + 1` of them, and clears the bits behind the vector. So `wordPad n`
zeros can be read there, which helps decoding flat tries whose last level collapsed (C04), but not always. The number is not the same for all
tries of a call of `Intersect`, so here every trie has its own.
-/

namespace CBT

open Spec

/-- C84: what the run encoding of a flat trie needs beyond the end of its bit vector, and whether decoding succeeds, from the set alone. `m`
is the number of smallest maximal full blocks; they are the ones not written where they are looked for. -/
theorem C84_decode_words {S : List Nat} {u : Nat} (hS : ValidSet S u) (hlen : S.length < 2 ^ 32) (hu : 3 ≤ u) (hu' : u ≤ 2 ^ 62) :
    ∃ t t', flatCtor S u = .ok t ∧ (∀ pad, t.encodeRuns pad = .ok t') ∧ t'.height = Nat.log2 (u - 1) + 1 ∧
      (onlyFours S = false → ∀ pad out, t'.decode pad out = .ok (out ++ S)) ∧
      (onlyFours S = true → ∀ j, (∀ i < j, runBlocks S t'.height i = []) → runBlocks S t'.height j ≠ [] →
        let m := (runBlocks S t'.height j).length
        t'.bTrie.length = 2 * (storedAbove true S t'.height 0 - m) ∧ t'.lastLevel.length = 2 * m ∧
        ∀ out, t'.decode (wordPad t'.bTrie.length) out =
          if 2 * m ≤ wordPad (2 * (storedAbove true S t'.height 0 - m)) then .ok (out ++ S) else .error .oob) := by
  obtain ⟨T, hc, hne, hT⟩ := flat_built hS hlen hu hu'
  obtain ⟨t', he, hh, -, -, -, -⟩ := flatOf_encode_cases (pad := 0) (hw := 0) (runs := false) hne
  have hall : ∀ pad, (flatOf _ T 0 false).encodeRuns pad = .ok t' := by
    intro pad
    rw [flatOfArrays_runs (hw' := 0) (r' := false) hne] at he ⊢
    exact he
  refine ⟨_, t', hc, hall, hh, fun h4 pad out => ?_, fun h4 j hj1 hj2 => ?_⟩
  · obtain ⟨t1, t2, e1, e2, h1, -⟩ := C04_flat_runs_decode_exact hS hlen hu hu' pad out
    rw [hc] at e1
    cases e1
    rw [hall] at e2
    cases e2
    exact h1 fun j k h => absurd h.1 (by rw [h4]; decide)
  · have key : ∀ pad out, (2 * (runBlocks S t'.height j).length ≤ pad → t'.decode pad out = .ok (out ++ S)) ∧
        (¬ 2 * (runBlocks S t'.height j).length ≤ pad → t'.decode pad out = .error .oob) := by
      intro pad out
      obtain ⟨t1, t2, e1, e2, h1, h2⟩ := C04_flat_runs_decode_exact hS hlen hu hu' pad out
      rw [hc] at e1
      cases e1
      rw [hall] at e2
      cases e2
      rw [← hh] at h1 h2
      refine ⟨fun h => h1 ?_, fun h => h2 ?_⟩
      · rintro i k ⟨-, h3, h5⟩
        rcases Nat.lt_trichotomy i j with hij | rfl | hij
        · rw [hj1 i hij] at h5; simp at h5
        · rw [List.drop_eq_nil_of_le (by omega)] at h5; simp at h5
        · exact hj2 (h3 j hij)
      · obtain ⟨k, l, e⟩ := List.exists_cons_of_ne_nil (l := (runBlocks S t'.height j).drop (pad / 2)) (by
          rw [Ne, List.drop_eq_nil_iff]; omega)
        exact ⟨j, k, h4, hj1, by rw [e]; exact List.mem_cons_self⟩
    have hlast : t'.lastLevel.length = 2 * (runBlocks S t'.height j).length := by
      have hno : ¬ ∃ x ∈ S, ∃ y, y / 4 = x / 4 ∧ y ∉ S := by
        rintro ⟨x, hx, y, hy, hn⟩
        exact hn (onlyFours_iff.1 h4 x hx y hy)
      have hiff : ∀ pad, t'.lastLevel.length ≤ pad ↔ 2 * (runBlocks S t'.height j).length ≤ pad := by
        intro pad
        obtain ⟨t1, t2, e1, e2, h1, -⟩ := C04_flat_runs_decode_iff hS hlen hu hu' pad []
        rw [hc] at e1
        cases e1
        rw [hall] at e2
        cases e2
        rw [or_iff_right hno] at h1
        rw [← h1]
        constructor
        · intro h
          by_contra hn
          rw [(key pad []).2 hn] at h
          cases h
        · exact (key pad []).1
      have := (hiff t'.lastLevel.length).1 (Nat.le_refl _)
      have := (hiff (2 * (runBlocks S t'.height j).length)).2 (Nat.le_refl _)
      omega
    have hbits : t'.bTrie.length = 2 * (storedAbove true S t'.height 0 - (runBlocks S t'.height j).length) := by
      obtain ⟨t1, t2, e1, e2, -, h1⟩ := C64_flat_blocks hS hlen hu hu' 0
      rw [hc] at e1
      cases e1
      rw [hall] at e2
      cases e2
      rw [show (flatOf (Nat.log2 (u - 1)) T 0 false).height = t'.height from hh.symm] at h1
      omega
    refine ⟨hbits, hlast, fun out => ?_⟩
    obtain ⟨h1, h2⟩ := key (wordPad t'.bTrie.length) out
    rw [← hbits]
    split
    · next h => exact h1 h
    · next h => exact h2 h

/-- Every set has such blocks, of some size. -/
theorem runBlocks_some {S : List Nat} {u : Nat} (hS : ValidSet S u) :
    ∃ j, (∀ i < j, runBlocks S (Nat.log2 (u - 1) + 1) i = []) ∧ runBlocks S (Nat.log2 (u - 1) + 1) j ≠ [] := by
  obtain ⟨x, hx⟩ : ∃ x, x ∈ S := List.exists_mem_of_ne_nil _ hS.ne
  have hlt : x < 2 ^ (Nat.log2 (u - 1) + 1) := lt_height (hS.below x hx)
  generalize Nat.log2 (u - 1) + 1 = t at hlt ⊢
  have hex : ∃ j, runBlocks S t j ≠ [] := by
    obtain ⟨j, hj, hf, hmax⟩ : ∃ j ≤ t, blockFull S j (x / 2 ^ j) = true ∧ ∀ i, j < i → i ≤ t → ¬ blockFull S i (x / 2 ^ i) = true := by
      refine ⟨Nat.findGreatest (fun j => blockFull S j (x / 2 ^ j) = true) t, Nat.findGreatest_le t, ?_, fun i h1 h2 h3 => ?_⟩
      · exact Nat.findGreatest_spec (P := fun j => blockFull S j (x / 2 ^ j) = true) (Nat.zero_le t)
          (blockFull_iff.2 fun y hy => by simp only [Nat.pow_zero, Nat.div_one] at hy; exact hy ▸ hx)
      · exact absurd (Nat.le_findGreatest (P := fun j => blockFull S j (x / 2 ^ j) = true) h2 h3) (Nat.not_le.2 h1)
    refine ⟨j, List.ne_nil_of_mem (mem_runBlocks.2 ⟨?_, runBlock_iff.2 ⟨hf, fun h => ?_⟩⟩)⟩
    · rw [Nat.div_lt_iff_lt_mul (Nat.two_pow_pos j), ← Nat.pow_add, show t - j + j = t by omega]
      exact hlt
    · rw [Nat.div_div_eq_div_mul, ← Nat.pow_succ]
      exact hmax (j + 1) (by omega) h
  classical
  exact ⟨Nat.find hex, fun i hi => not_not.1 (Nat.find_min hex hi), Nat.find_spec hex⟩

/-- C84: one such block can always be read, for instance if the set is one aligned block. -/
theorem C84_one_block {S : List Nat} {u : Nat} (hS : ValidSet S u) (hlen : S.length < 2 ^ 32) (hu : 3 ≤ u) (hu' : u ≤ 2 ^ 62)
    (h1 : ∀ j, (runBlocks S (Nat.log2 (u - 1) + 1) j).length ≤ 1) (out : List Nat) :
    ∃ t t', flatCtor S u = .ok t ∧ (∀ pad, t.encodeRuns pad = .ok t') ∧ t'.decode (wordPad t'.bTrie.length) out = .ok (out ++ S) := by
  obtain ⟨t, t', e1, e2, hh, g1, g2⟩ := C84_decode_words hS hlen hu hu'
  refine ⟨t, t', e1, e2, ?_⟩
  cases h4 : onlyFours S with
  | false => exact g1 h4 _ _
  | true =>
    obtain ⟨j, hj1, hj2⟩ := runBlocks_some hS
    rw [← hh] at hj1 hj2 h1
    obtain ⟨-, -, g⟩ := g2 h4 j hj1 hj2
    rw [g out, if_pos]
    have := h1 j
    rw [wordPad]
    omega

/-- C84, false in general: no trie of a set that consists of full blocks of four and has more than 32 smallest maximal full blocks can be
decoded, however full the last word is. -/
theorem C84_negation {S : List Nat} {u : Nat} (hS : ValidSet S u) (hlen : S.length < 2 ^ 32) (hu : 3 ≤ u) (hu' : u ≤ 2 ^ 62)
    (h4 : onlyFours S = true) {j : Nat} (hj : ∀ i < j, runBlocks S (Nat.log2 (u - 1) + 1) i = [])
    (hm : 32 < (runBlocks S (Nat.log2 (u - 1) + 1) j).length) (out : List Nat) :
    ∃ t t', flatCtor S u = .ok t ∧ (∀ pad, t.encodeRuns pad = .ok t') ∧ t'.decode (wordPad t'.bTrie.length) out = .error .oob := by
  obtain ⟨t, t', e1, e2, hh, -, g2⟩ := C84_decode_words hS hlen hu hu'
  rw [← hh] at hj hm
  obtain ⟨-, -, g⟩ := g2 h4 j hj (fun h => by rw [h] at hm; simp at hm)
  refine ⟨t, t', e1, e2, ?_⟩
  rw [g out, if_neg]
  rw [wordPad]
  omega

namespace Ex

/-- Blocks of four with gaps of four. -/
def gapFours (n : Nat) : List Nat := (List.range n).flatMap fun k => [8 * k, 8 * k + 1, 8 * k + 2, 8 * k + 3]

end Ex

/-- Ten blocks can be read, eleven cannot, seventeen can again, and 33 cannot. -/
example : ValidSet (Ex.gapFours 33) 512 ∧ onlyFours (Ex.gapFours 33) = true ∧ (∀ i < 2, runBlocks (Ex.gapFours 33) 9 i = []) ∧
    32 < (runBlocks (Ex.gapFours 33) 9 2).length ∧
    (flatCtor (Ex.gapFours 10) 80 >>= fun t => t.encodeRuns 0 >>= fun t => t.decode (wordPad t.bTrie.length) []) = .ok (Ex.gapFours 10) ∧
    (flatCtor (Ex.gapFours 11) 88 >>= fun t => t.encodeRuns 0 >>= fun t => t.decode (wordPad t.bTrie.length) []) = .error .oob ∧
    (flatCtor (Ex.gapFours 17) 136 >>= fun t => t.encodeRuns 0 >>= fun t => t.decode (wordPad t.bTrie.length) []) = .ok (Ex.gapFours 17) := by
  decide +kernel

/-! ## Intersections, every trie with its own number of readable bits -/

/-- C84, sequential run-aware `Intersect` (C08) of tries with different numbers of readable bits: `c.1` for the trie of the set `c.2.2`. -/
theorem C84_seq_runs_exact {h : Nat} {cs : List (Nat × Bool × List Nat)} {Ts : List Nav}
    (hTs : List.Forall₂ (fun c => ReadTrie c.1 h c.2) cs Ts) (hne : Ts ≠ []) (hlen : Ts.length ≤ 16) (env : Env) (hw : env.hw ≠ 0) :
    ((∀ c ∈ cs, c.2.1 = true → ∀ j k, unreadable c.1 h c.2.2 j k → blockMissed (cs.map fun c => c.2.2) j k) →
      ∃ R, intersect Ts true false env = .ok R ∧ IsIntersection (cs.map fun c => c.2.2) R) ∧
    (¬ (∀ c ∈ cs, c.2.1 = true → ∀ j k, unreadable c.1 h c.2.2 j k → blockMissed (cs.map fun c => c.2.2) j k) →
      intersect Ts true false env = .error .oob) := by
  obtain ⟨as, rfl, e2, h1⟩ : ∃ as : List (Nav × (Nat → Nat → Prop)), as.map Prod.fst = Ts ∧
      as.map Prod.snd = (cs.map fun c => cannotRead c.1 h c.2) ∧
      List.Forall₂ (fun S (a : Nav × (Nat → Nat → Prop)) => HoldsB (h - 1) S a.2 a.1) (cs.map fun c => c.2.2) as := by
    clear hne hlen
    induction hTs with
    | nil => exact ⟨[], rfl, rfl, .nil⟩
    | @cons c n cs Ts h1 _ ih =>
      obtain ⟨as, e1, e2, h2⟩ := ih
      exact ⟨(n, cannotRead c.1 h c.2) :: as, by simp [e1], by simp [e2], .cons h1.holds h2⟩
  obtain ⟨R, hR, h2⟩ := intersect_seq_hits h1 (by simpa using hne) (by simpa using hlen) hw
  have hiff : (∃ a ∈ as, ∃ j k, a.2 j (k * 2 ^ j) ∧ ∀ S ∈ cs.map fun c => c.2.2, ∃ y ∈ S, y / 2 ^ j = k) ↔
      ¬ (∀ c ∈ cs, c.2.1 = true → ∀ j k, unreadable c.1 h c.2.2 j k → blockMissed (cs.map fun c => c.2.2) j k) := by
    have hm : ∀ j k, (∀ S ∈ cs.map fun c => c.2.2, ∃ y ∈ S, y / 2 ^ j = k) ↔ ¬ blockMissed (cs.map fun c => c.2.2) j k := by
      intro j k
      simp only [blockMissed, not_exists, not_and, not_forall, ne_eq, not_not, exists_prop]
    have ha : ∀ P : (Nat → Nat → Prop) → Prop, (∃ a ∈ as, P a.2) ↔ ∃ c ∈ cs, P (cannotRead c.1 h c.2) := by
      intro P
      constructor
      · rintro ⟨a, ha, hP⟩
        have : a.2 ∈ cs.map fun c => cannotRead c.1 h c.2 := e2 ▸ List.mem_map.2 ⟨a, ha, rfl⟩
        obtain ⟨c, hc, e⟩ := List.mem_map.1 this
        exact ⟨c, hc, e ▸ hP⟩
      · rintro ⟨c, hc, hP⟩
        have : cannotRead c.1 h c.2 ∈ as.map Prod.snd := e2 ▸ List.mem_map.2 ⟨c, hc, rfl⟩
        obtain ⟨a, ha, e⟩ := List.mem_map.1 this
        exact ⟨a, ha, e ▸ hP⟩
    rw [ha fun bad => ∃ j k, bad j (k * 2 ^ j) ∧ ∀ S ∈ cs.map fun c => c.2.2, ∃ y ∈ S, y / 2 ^ j = k]
    simp only [hm]
    push Not
    constructor
    · rintro ⟨c, hc, j, k, ⟨h1, k', e, hu⟩, hmiss⟩
      have : k = k' := Nat.eq_of_mul_eq_mul_right (Nat.two_pow_pos j) e
      exact ⟨c, hc, h1, j, k, this ▸ hu, hmiss⟩
    · rintro ⟨c, hc, h1, j, k, hu, hmiss⟩
      exact ⟨c, hc, j, k, ⟨h1, k, rfl, hu⟩, hmiss⟩
  constructor
  · intro h
    rw [if_neg (fun hc => hiff.1 hc h)] at h2
    exact ⟨R, h2, hR⟩
  · intro h
    rw [if_pos (hiff.2 h)] at h2
    exact h2

/-- C84, parallel run-aware `Intersect` (C08, C12) of tries with different numbers of readable bits. -/
theorem C84_par_runs_exact {h : Nat} {cs : List (Nat × Coding × List Nat)} {Ts : List Nav}
    (hTs : List.Forall₂ (fun c => KnownTrie c.1 h c.2) cs Ts)
    (hne : Ts ≠ []) (hlen : Ts.length ≤ 16) (env : Env) (hw : env.hw ≠ 0) (hw2 : env.hw < 2 ^ 16) (hcut : Nat.log2 env.hw + 2 ≤ h) :
    ((∀ c ∈ cs, c.2.1 = .flat → ∀ j k, unreadable c.1 h c.2.2 j k →
        visited (withRuns (cs.map Prod.snd)) (h - Nat.log2 env.hw) (Nat.log2 env.hw) j k = false) →
      intersect Ts true true env = .ok (runsResult (withRuns (cs.map Prod.snd)) (h - Nat.log2 env.hw) (Nat.log2 env.hw))) ∧
    (¬ (∀ c ∈ cs, c.2.1 = .flat → ∀ j k, unreadable c.1 h c.2.2 j k →
        visited (withRuns (cs.map Prod.snd)) (h - Nat.log2 env.hw) (Nat.log2 env.hw) j k = false) →
      intersect Ts true true env = .error .oob) := by
  obtain ⟨d, hd⟩ : ∃ d, h - 1 = d + 1 + Nat.log2 env.hw := ⟨h - 2 - Nat.log2 env.hw, by omega⟩
  obtain ⟨e, rfl⟩ : ∃ e, h = e + 1 := ⟨h - 1, by omega⟩
  rw [Nat.add_sub_cancel] at hd
  subst hd
  have hcs : withRuns (cs.map Prod.snd) ≠ [] := by
    intro h
    rw [withRuns, List.map_eq_nil_iff, List.map_eq_nil_iff] at h
    subst h
    cases hTs
    exact hne rfl
  have hd : d + 1 + Nat.log2 env.hw ≤ 62 := by
    cases hTs with
    | nil => exact (hne rfl).elim
    | cons h _ => exact h.read.holds.depth
  have hh := forall2_imp_right hTs fun _ _ h => h.read.holds.height
  rw [Nat.add_sub_cancel] at hh
  obtain ⟨as, rfl, ts, h1, h2, h3⟩ : ∃ as : List (Nav × (Nat → Nat → Prop)), as.map Prod.fst = Ts ∧ ∃ ts : List (Tr (d + 1 + Nat.log2 env.hw)),
      List.Forall₂ (fun a t => RepB a.1 a.2 (leafF a.1) 1 (d + 1 + Nat.log2 env.hw) 0 t 0 0) as ts ∧
      List.Forall₂ (CTree 1 (d + 1 + Nat.log2 env.hw)) (withRuns (cs.map Prod.snd)) ts ∧
      ∀ j k, (∃ a t, (a, t) ∈ as.zip ts ∧ BareAt 1 (d + 1 + Nat.log2 env.hw) t j k ∧ a.2 j (0 + k * 2 ^ j)) ↔
        ∃ c ∈ cs, cannotReadK c.1 (d + 1 + Nat.log2 env.hw + 1) c.2 j (k * 2 ^ j) := by
    clear hne hlen hcs hh
    induction hTs with
    | nil => exact ⟨[], rfl, [], .nil, .nil, by simp⟩
    | @cons c n cs Ts h1 _ ih =>
      obtain ⟨as, e1, ts, h2, h3, h4⟩ := ih
      obtain ⟨T, g1, g2, g3⟩ := h1.tree
      refine ⟨(n, cannotReadK c.1 (d + 1 + Nat.log2 env.hw + 1) c.2) :: as, by simp [e1], T :: ts, .cons g1 h2, .cons g2 h3, fun j k => ?_⟩
      rw [List.exists_mem_cons_iff, ← h4 j k]
      constructor
      · rintro ⟨a, t, hm, hB, hbad⟩
        rw [List.zip_cons_cons, List.mem_cons] at hm
        rcases hm with e | hm
        · injection e with ea et
          subst ea et
          exact .inl (by simpa using hbad)
        · exact .inr ⟨a, t, hm, hB, hbad⟩
      · rintro (h | ⟨a, t, hm, hB, hbad⟩)
        · obtain ⟨k', e, hB⟩ := g3 _ _ h
          obtain rfl : k = k' := Nat.eq_of_mul_eq_mul_right (Nat.two_pow_pos j) e
          exact ⟨_, _, List.mem_cons_self, hB, by simpa using h⟩
        · exact ⟨a, t, List.mem_cons_of_mem _ hm, hB, hbad⟩
  have A := agree_of h2 hcs
  have hbody := par_body_hits Prod.fst Prod.snd (fun a => leafF a.1) 1 (c := flatCfg (d + 1 + Nat.log2 env.hw + 1))
    (height := d + 1 + Nat.log2 env.hw + 1) (by simpa using hne) (flat_leafOKR_fst as _) h1 (by simpa using hlen) (by rfl) (by rfl)
    (show d + 1 + Nat.log2 env.hw + 1 < 64 by omega) hw hw2 (by omega)
  rw [exactOut_eq A, ← intersect_unfold hne hh] at hbody
  have hj : d + 1 + Nat.log2 env.hw + 1 - Nat.log2 env.hw = d + 1 + 1 := by omega
  rw [hj]
  have hiff : HitsPar Prod.snd 1 as ts ↔ ¬ (∀ c ∈ cs, c.2.1 = .flat → ∀ j k, unreadable c.1 (d + 1 + Nat.log2 env.hw + 1) c.2.2 j k →
        visited (withRuns (cs.map Prod.snd)) (d + 1 + 1) (Nat.log2 env.hw) j k = false) := by
    rw [hitsPar_iff A as]
    push Not
    simp only [ne_eq, Bool.not_eq_false]
    constructor
    · rintro ⟨j, k, hs, hv⟩
      obtain ⟨c, hc, hf, k', e, hu⟩ := (h3 j k).1 hs
      obtain rfl : k = k' := Nat.eq_of_mul_eq_mul_right (Nat.two_pow_pos j) e
      exact ⟨c, hc, of_decide_eq_true hf, j, k, hu, hv⟩
    · rintro ⟨c, hc, hf, j, k, hu, hv⟩
      exact ⟨j, k, (h3 j k).2 ⟨c, hc, decide_eq_true hf, k, rfl, hu⟩, hv⟩
  constructor
  · intro h
    rw [if_neg fun hc => hiff.1 hc h] at hbody
    exact hbody
  · intro h
    rw [if_pos (hiff.2 h)] at hbody
    exact hbody

/-- The collapsed trie of the examples with one readable bit more than the first block needs, beside a trie that can be read. -/
example : List.Forall₂ (fun c => ReadTrie c.1 4 c.2) [(2, true, [0, 1, 2, 3, 12, 13, 14, 15]), (5, false, [4])]
      [Ex.flatCollapsed.nav 2, Ex.levelFour.nav false 5] ∧
    intersect [Ex.flatCollapsed.nav 2, Ex.levelFour.nav false 5] true false ⟨1, [], []⟩ = .ok [] :=
  ⟨.cons Ex.flatCollapsed_read (.cons (.plain (.level (u := 16) false (by decide +kernel) (by decide +kernel) (by decide) (by decide)
    (by decide +kernel) rfl)) .nil), by decide +kernel⟩

end CBT
