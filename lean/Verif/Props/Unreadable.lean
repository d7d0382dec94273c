import Verif.Proof.UnreadableDecode
import Verif.Props.Returned
import Verif.Props.Runs

/-!
# C04, C08: exactly when decoding and sequential run-aware `Intersect` read out of bounds
-/

namespace CBT

open Spec

/-- `BuiltTrie` with the information whether it is a run-encoded flat trie. -/
inductive ReadTrie (pad h : Nat) : Bool × List Nat → Nav → Prop
  | plain {S : List Nat} {n : Nav} : PlainTrie pad h S n → ReadTrie pad h (false, S) n
  | flat {S : List Nat} {u : Nat} {t t' : FlatTrie} : ValidSet S u → S.length < 2 ^ 32 → 3 ≤ u → u ≤ 2 ^ 62 → flatCtor S u = .ok t →
    t.encodeRuns pad = .ok t' → t'.height = h → ReadTrie pad h (true, S) (t'.nav pad)
  | level {S : List Nat} {u : Nat} {t t' : LevelTrie} (il : Bool) : ValidSet S u → S.length < 2 ^ 64 → 2 ≤ u → u ≤ 2 ^ 63 →
    levelCtor S u = .ok t → t.encodeRuns il pad = .ok t' → t'.height = h → ReadTrie pad h (false, S) (t'.nav il pad)

theorem ReadTrie.built {pad h : Nat} {S : List Nat} {n : Nav} : BuiltTrie pad h S n ↔ ∃ c, ReadTrie pad h (c, S) n := by
  constructor
  · rintro (h | ⟨h1, h2, h3, h4, h5, h6, h7⟩ | ⟨il, h1, h2, h3, h4, h5, h6, h7⟩)
    · exact ⟨_, .plain h⟩
    · exact ⟨_, .flat h1 h2 h3 h4 h5 h6 h7⟩
    · exact ⟨_, .level il h1 h2 h3 h4 h5 h6 h7⟩
  · rintro ⟨c, h | ⟨h1, h2, h3, h4, h5, h6, h7⟩ | ⟨il, h1, h2, h3, h4, h5, h6, h7⟩⟩
    · exact .plain h
    · exact .flat h1 h2 h3 h4 h5 h6 h7
    · exact .level il h1 h2 h3 h4 h5 h6 h7

/-- The blocks the trie cannot read: size and first number. -/
def cannotRead (pad h : Nat) (c : Bool × List Nat) (j x : Nat) : Prop := c.1 = true ∧ ∃ k, x = k * 2 ^ j ∧ unreadable pad h c.2 j k

theorem ReadTrie.holds {pad h : Nat} {c : Bool × List Nat} {n : Nav} (H : ReadTrie pad h c n) :
    HoldsB (h - 1) c.2 (cannotRead pad h c) n := by
  have hF : ∀ S j x, ¬ cannotRead pad h (false, S) j x := fun S j x h => by cases h.1
  cases H with
  | plain H =>
    have hH := H.holds
    obtain ⟨T, h1, h2, h3⟩ := hH.tree
    exact ⟨hH.height, hH.depth, hH.below, T, h1.toB (hF _), h2.nz, fun x hx => by rw [h2.hasR_eq]; exact h3 x hx,
      fun j x h => (hF _ _ _ h).elim⟩
  | @level S u t t' il hS hlen hu hu' hc he hh =>
    obtain ⟨T, hc', hne, hT⟩ := level_built hS hlen hu (by omega)
    rw [hc'] at hc
    cases hc
    have hd := level_depth hu hu'
    obtain ⟨k, _, _, he'⟩ := levelOf_encode (pad := pad) (il := il) (hw := 0) (runs := false) (by omega) hne
    rw [he'] at he
    cases he
    rw [levelOf_height] at hh
    subst hh
    exact ⟨levelOf_height, hd, fun x hx => lt_height (hS.below x hx), _,
      (levelOf_rep (by omega) hne.prune_nz).toB (hF _), hne.prune_nz, hT.prune hne, fun j x h => (hF _ _ _ h).elim⟩
  | @flat S u t t' hS hlen hu hu' hc he hh =>
    obtain ⟨T, hc', hne, hT⟩ := flat_built hS hlen hu hu'
    rw [hc'] at hc
    cases hc
    obtain ⟨hd1, hd⟩ := log2_bounds hu hu'
    have hb : ∀ x ∈ S, x < 2 ^ (Nat.log2 (u - 1) + 1) := fun x hx => lt_height (hS.below x hx)
    obtain ⟨t'', he', hh', -, -, hrep, -⟩ := flatOf_encode_cases (pad := pad) (hw := 0) (runs := false) hne
    rw [he'] at he
    cases he
    rw [hh'] at hh
    subst hh
    refine ⟨hh', Nat.le_succ_of_le hd, hb, prune 1 _ T, ?_, hne.prune_nz, hT.prune hne, ?_⟩
    · by_cases hl : leaves _ [prune 1 _ T] = []
      · obtain ⟨B, k, h1, h2⟩ := flat_encode_collapsed (pad := pad) rfl (flatOf_rep (hw := 0) (runs := false) hne.nz) hne hl
        rw [he'] at h2
        cases h2
        refine flat_repB rfl h1 hl fun j x => ?_
        have h := unreadable_iff (pad := pad) hd1 hne hT hb hl j x
        exact ⟨fun h' => h.1 h'.2, fun h' => ⟨rfl, h.2 h'⟩⟩
      · refine (hrep (Or.inl hl)).toB ?_
        rintro j x ⟨-, k, -, h, -⟩
        exact hl ((leaves_nil_iff hd1 hne hT hb).2 h)
    · rintro j x ⟨-, k, rfl, h, h', h''⟩
      refine ⟨k, rfl, (bareAt_runBlock hne hT j k).2 ?_⟩
      have hm := List.mem_of_mem_drop h''
      obtain ⟨hk, hr⟩ := mem_runBlocks.1 hm
      refine ⟨?_, ?_, hk, hr⟩
      · by_contra hc
        rw [runBlocks_small h (by omega) (by omega)] at hm
        simp at hm
      · by_contra hc
        have h0 := blockFull_iff.1 (runBlock_iff.1 hr).1
        have hlt : 2 ^ (Nat.log2 (u - 1) + 1) < 2 ^ j := Nat.pow_lt_pow_right (by omega) (by omega)
        have hk0 : k = 0 := by
          rw [show Nat.log2 (u - 1) + 1 - j = 0 by omega] at hk
          omega
        subst hk0
        have := hb _ (h0 (2 ^ (Nat.log2 (u - 1) + 1)) (Nat.div_eq_of_lt hlt))
        omega

/-- C04, exactly, in terms of the set: decoding a flat trie after `encodeRuns` gives back the set if every block can be read, and reads out
of bounds otherwise. -/
theorem C04_flat_runs_decode_exact {S : List Nat} {u : Nat} (hS : ValidSet S u) (hlen : S.length < 2 ^ 32) (hu : 3 ≤ u)
    (hu' : u ≤ 2 ^ 62) (pad : Nat) (out : List Nat) :
    ∃ t t', flatCtor S u = .ok t ∧ t.encodeRuns pad = .ok t' ∧
      ((∀ j k, ¬ unreadable pad (Nat.log2 (u - 1) + 1) S j k) → t'.decode pad out = .ok (out ++ S)) ∧
      ((∃ j k, unreadable pad (Nat.log2 (u - 1) + 1) S j k) → t'.decode pad out = .error .oob) := by
  obtain ⟨T, hc, hne, hT⟩ := flat_built hS hlen hu hu'
  obtain ⟨t', he, hh, hr, hem, -, -⟩ := flatOf_encode_cases (pad := pad) (hw := 0) (runs := false) hne
  have H := (ReadTrie.flat hS hlen hu hu' hc he hh).holds
  obtain ⟨h1, h2⟩ := H.decode hS.increasing out
  have e : t'.decode pad out = runsRecDecode (t'.nav pad) (Nat.log2 (u - 1) + 1) out 0 0 0 := by
    rw [FlatTrie.decode, hr, hem, hh]
    simp only [if_true, Bool.false_eq_true, if_false]
  rw [Nat.add_sub_cancel] at h1 h2
  refine ⟨_, t', hc, he, fun h => ?_, fun h => ?_⟩
  · rw [e]
    exact h1 fun j x h' => h _ _ h'.2.choose_spec.2
  · obtain ⟨j, k, h⟩ := h
    rw [e]
    exact h2 ⟨j, k * 2 ^ j, rfl, k, rfl, h⟩

example : ValidSet [0, 1, 2, 3, 12, 13, 14, 15] 16 ∧ unreadable 3 4 [0, 1, 2, 3, 12, 13, 14, 15] 2 3 ∧
    (flatCtor [0, 1, 2, 3, 12, 13, 14, 15] 16 >>= fun t => t.encodeRuns 3 >>= fun t => t.decode 3 [7]) = .error .oob :=
  ⟨by decide +kernel, ⟨by decide +kernel, by decide +kernel, by decide +kernel⟩, by decide +kernel⟩

theorem readTries_pair {pad h : Nat} {cs : List (Bool × List Nat)} {Ts : List Nav} (H : List.Forall₂ (ReadTrie pad h) cs Ts) :
    ∃ as : List (Nav × (Nat → Nat → Prop)), as.map Prod.fst = Ts ∧ as.map Prod.snd = cs.map (cannotRead pad h) ∧
      List.Forall₂ (fun S (a : Nav × (Nat → Nat → Prop)) => HoldsB (h - 1) S a.2 a.1) (cs.map Prod.snd) as := by
  induction H with
  | nil => exact ⟨[], rfl, rfl, .nil⟩
  | @cons c n cs Ts h1 _ ih =>
    obtain ⟨as, e1, e2, h2⟩ := ih
    exact ⟨(n, cannotRead pad h c) :: as, by simp [e1], by simp [e2], .cons h1.holds h2⟩

/-- C08, exactly. Sequential run-aware `Intersect` of 1 to 16 tries of one height, each plain or run-encoded, returns the intersection iff
every block that a run-encoded flat trie cannot read is missed by one of the sets. Otherwise it reads out of bounds. -/
theorem C08_seq_runs_exact_partial {pad h : Nat} {cs : List (Bool × List Nat)} {Ts : List Nav} (hTs : List.Forall₂ (ReadTrie pad h) cs Ts)
    (hne : Ts ≠ []) (hlen : Ts.length ≤ 16) (env : Env) (hw : env.hw ≠ 0) :
    ((∀ c ∈ cs, c.1 = true → ∀ j k, unreadable pad h c.2 j k → blockMissed (cs.map Prod.snd) j k) →
      ∃ R, intersect Ts true false env = .ok R ∧ IsIntersection (cs.map Prod.snd) R) ∧
    (¬ (∀ c ∈ cs, c.1 = true → ∀ j k, unreadable pad h c.2 j k → blockMissed (cs.map Prod.snd) j k) →
      intersect Ts true false env = .error .oob) := by
  obtain ⟨as, rfl, e2, h1⟩ := readTries_pair hTs
  obtain ⟨R, hR, h2⟩ := intersect_seq_hits h1 (by simpa using hne) (by simpa using hlen) hw
  have hiff : (∃ a ∈ as, ∃ j k, a.2 j (k * 2 ^ j) ∧ ∀ S ∈ cs.map Prod.snd, ∃ y ∈ S, y / 2 ^ j = k) ↔
      ¬ (∀ c ∈ cs, c.1 = true → ∀ j k, unreadable pad h c.2 j k → blockMissed (cs.map Prod.snd) j k) := by
    have hm : ∀ j k, (∀ S ∈ cs.map Prod.snd, ∃ y ∈ S, y / 2 ^ j = k) ↔ ¬ blockMissed (cs.map Prod.snd) j k := by
      intro j k
      simp only [blockMissed, not_exists, not_and, not_forall, ne_eq, not_not, exists_prop]
    have ha : ∀ P : (Nat → Nat → Prop) → Prop, (∃ a ∈ as, P a.2) ↔ ∃ c ∈ cs, P (cannotRead pad h c) := by
      intro P
      constructor
      · rintro ⟨a, ha, hP⟩
        have : a.2 ∈ cs.map (cannotRead pad h) := e2 ▸ List.mem_map.2 ⟨a, ha, rfl⟩
        obtain ⟨c, hc, e⟩ := List.mem_map.1 this
        exact ⟨c, hc, e ▸ hP⟩
      · rintro ⟨c, hc, hP⟩
        have : cannotRead pad h c ∈ as.map Prod.snd := e2 ▸ List.mem_map.2 ⟨c, hc, rfl⟩
        obtain ⟨a, ha, e⟩ := List.mem_map.1 this
        exact ⟨a, ha, e ▸ hP⟩
    rw [ha fun bad => ∃ j k, bad j (k * 2 ^ j) ∧ ∀ S ∈ cs.map Prod.snd, ∃ y ∈ S, y / 2 ^ j = k]
    simp only [hm]
    push Not
    constructor
    · rintro ⟨c, hc, j, k, ⟨h1, k', e, hu⟩, hmiss⟩
      have : k = k' := Nat.eq_of_mul_eq_mul_right (Nat.two_pow_pos j) e
      exact ⟨c, hc, h1, j, k, this ▸ hu, hmiss⟩
    · rintro ⟨c, hc, h1, j, k, hu, hmiss⟩
      exact ⟨c, hc, j, k, ⟨h1, k, rfl, hu⟩, hmiss⟩
  constructor
  · intro h
    rw [if_neg (fun hc => hiff.1 hc h)] at h2
    exact ⟨R, h2, hR⟩
  · intro h
    rw [if_pos (hiff.2 h)] at h2
    exact h2

namespace Ex

theorem flatCollapsed_read : ReadTrie 2 4 (true, [0, 1, 2, 3, 12, 13, 14, 15]) (flatCollapsed.nav 2) :=
  .flat (u := 16) (t := ⟨4, 0, false, false, [true, true, true, false, false, true, true, true, true, true],
      [true, true, true, true, true, true, true, true]⟩)
    (by decide +kernel) (by decide +kernel) (by decide) (by decide) (by decide +kernel) (by decide +kernel) rfl

theorem levelFour_read : ReadTrie 2 4 (false, [4]) (levelFour.nav false 2) :=
  .plain (.level (u := 16) false (by decide +kernel) (by decide +kernel) (by decide) (by decide) (by decide +kernel) rfl)

end Ex

/-- With two bits readable after the bit vector the first of the two blocks of four can be read and the second cannot. -/
example : List.Forall₂ (ReadTrie 2 4) [(true, [0, 1, 2, 3, 12, 13, 14, 15]), (false, [4])]
      [Ex.flatCollapsed.nav 2, Ex.levelFour.nav false 2] ∧
    unreadable 2 4 [0, 1, 2, 3, 12, 13, 14, 15] 2 3 ∧ ¬ unreadable 2 4 [0, 1, 2, 3, 12, 13, 14, 15] 2 0 ∧
    intersect [Ex.flatCollapsed.nav 2, Ex.levelFour.nav false 2] true false ⟨1, [], []⟩ = .ok [] ∧
    intersect [Ex.flatCollapsed.nav 2] true false ⟨1, [], []⟩ = .error .oob :=
  ⟨.cons Ex.flatCollapsed_read (.cons Ex.levelFour_read .nil), ⟨by decide +kernel, by decide +kernel, by decide +kernel⟩,
    fun h => absurd h.2.2 (by decide +kernel), by decide +kernel, by decide +kernel⟩

end CBT
