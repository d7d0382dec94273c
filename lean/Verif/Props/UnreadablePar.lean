import Verif.Proof.UnreadableParSets
import Verif.Props.Unreadable
import Verif.Props.ExactRuns
import Verif.Props.Height1

/-!
# C08, C12: exactly when parallel run-aware `Intersect` reads out of bounds
-/

namespace CBT

open Spec

theorem KnownTrie.built {pad h : Nat} {S : List Nat} {n : Nav} : BuiltTrie pad h S n ↔ ∃ c, KnownTrie pad h (c, S) n := by
  constructor
  · rintro (h | ⟨h1, h2, h3, h4, h5, h6, h7⟩ | ⟨il, h1, h2, h3, h4, h5, h6, h7⟩)
    · exact ⟨_, .plain h⟩
    · exact ⟨_, .flat h1 h2 h3 h4 h5 h6 h7⟩
    · exact ⟨_, .level il h1 h2 h3 h4 h5 h6 h7⟩
  · rintro ⟨c, h | ⟨h1, h2, h3, h4, h5, h6, h7⟩ | ⟨il, h1, h2, h3, h4, h5, h6, h7⟩⟩
    · exact .plain h
    · exact .flat h1 h2 h3 h4 h5 h6 h7
    · exact .level il h1 h2 h3 h4 h5 h6 h7

theorem KnownTrie.read {pad h : Nat} {c : Coding × List Nat} {n : Nav} (H : KnownTrie pad h c n) :
    ReadTrie pad h (decide (c.1 = .flat), c.2) n := by
  cases H with
  | plain H => exact .plain H
  | flat h1 h2 h3 h4 h5 h6 h7 => exact .flat h1 h2 h3 h4 h5 h6 h7
  | level il h1 h2 h3 h4 h5 h6 h7 => exact .level il h1 h2 h3 h4 h5 h6 h7

/-- If every block can be read, the condition of `CodedTrie.flat` holds. -/
theorem KnownTrie.readable {pad h : Nat} {c : Coding} {S : List Nat} {n : Nav} (H : KnownTrie pad h (c, S) n)
    (hc : c = .flat → ∀ j k, ¬ unreadable pad h S j k) : CodedTrie pad h (c.runs, S) n := by
  cases H with
  | plain H => exact .plain H
  | @flat _ u t t' h1 h2 h3 h4 h5 h6 h7 =>
    obtain ⟨T, g, hne, -⟩ := flat_built h1 h2 h3 h4
    obtain ⟨t'', e1, e2, -⟩ := flatOf_encode_cases (pad := pad) (hw := 0) (runs := false) hne
    obtain ⟨t₁, t₂, a1, a2, a3, -⟩ := C04_flat_runs_decode_iff h1 h2 h3 h4 pad []
    obtain ⟨t₃, t₄, b1, b2, b3, -⟩ := C04_flat_runs_decode_exact h1 h2 h3 h4 pad []
    rw [h5] at a1 b1 g; cases a1; cases b1; cases g
    rw [h6] at a2 b2 e1; cases a2; cases b2; cases e1
    rw [h7] at e2; subst e2
    exact .flat h1 h2 h3 h4 h5 h6 h7 (a3.1 (b3 (hc rfl)))
  | level il h1 h2 h3 h4 h5 h6 h7 => exact .level il h1 h2 h3 h4 h5 h6 h7

/-- The blocks the trie cannot read. -/
def cannotReadK (pad h : Nat) (c : Coding × List Nat) : Nat → Nat → Prop := cannotRead pad h (decide (c.1 = .flat), c.2)

theorem KnownTrie.tree {pad h : Nat} {c : Coding × List Nat} {n : Nav} (H : KnownTrie pad h c n) :
    ∃ T, RepB n (cannotReadK pad h c) (leafF n) 1 (h - 1) 0 T 0 0 ∧ CTree 1 (h - 1) (c.1.runs, c.2) T ∧
      ∀ j x, cannotReadK pad h c j x → ∃ k, x = k * 2 ^ j ∧ BareAt 1 (h - 1) T j k := by
  have hF : ∀ c S j x, c ≠ Coding.flat → ¬ cannotReadK pad h (c, S) j x := fun c S j x hc h => by
    have := h.1
    simp only [decide_eq_true_eq] at this
    exact hc this
  have hb := H.read.holds.below
  cases H with
  | plain H =>
    obtain ⟨T, h1, h2, h3⟩ := H.holds.tree
    exact ⟨T, h1.toB fun j x => hF _ _ j x (by decide), ⟨hb, T, h2, h3, rfl⟩, fun j x h => (hF _ _ j x (by decide) h).elim⟩
  | @level S u t t' il hS hlen hu hu' hc he hh =>
    obtain ⟨T, hc', hne, hT⟩ := level_built hS hlen hu (by omega)
    rw [hc'] at hc
    cases hc
    have hd := level_depth hu hu'
    obtain ⟨k, _, _, he'⟩ := levelOf_encode (pad := pad) (il := il) (hw := 0) (runs := false) (by omega) hne
    rw [he'] at he
    cases he
    rw [levelOf_height] at hh
    subst hh
    exact ⟨_, (levelOf_rep (by omega) hne.prune_nz).toB fun j x => hF _ _ j x (by decide), ⟨hb, T, hne, hT, rfl⟩,
      fun j x h => (hF _ _ j x (by decide) h).elim⟩
  | @flat S u t t' hS hlen hu hu' hc he hh =>
    obtain ⟨T, hc', hne, hT⟩ := flat_built hS hlen hu hu'
    rw [hc'] at hc
    cases hc
    obtain ⟨hd1, hd⟩ := log2_bounds hu hu'
    obtain ⟨t'', he', hh', -, -, hrep, -⟩ := flatOf_encode_cases (pad := pad) (hw := 0) (runs := false) hne
    rw [he'] at he
    cases he
    rw [hh'] at hh
    subst hh
    rw [Nat.add_sub_cancel] at hb ⊢
    refine ⟨prune 1 _ T, ?_, ⟨hb, T, hne, hT, rfl⟩, ?_⟩
    · by_cases hl : leaves _ [prune 1 _ T] = []
      · obtain ⟨B, k, h1, h2⟩ := flat_encode_collapsed (pad := pad) rfl (flatOf_rep (hw := 0) (runs := false) hne.nz) hne hl
        rw [he'] at h2
        cases h2
        refine flat_repB rfl h1 hl fun j x => ?_
        have h := unreadable_iff (pad := pad) hd1 hne hT hb hl j x
        exact ⟨fun h' => h.1 h'.2, fun h' => ⟨rfl, h.2 h'⟩⟩
      · refine (hrep (Or.inl hl)).toB ?_
        rintro j x ⟨-, k, -, h, -⟩
        exact hl ((leaves_nil_iff hd1 hne hT hb).2 h)
    · rintro j x ⟨-, k, rfl, h, h', h''⟩
      refine ⟨k, rfl, (bareAt_runBlock hne hT j k).2 ?_⟩
      have hm := List.mem_of_mem_drop h''
      obtain ⟨hk, hr⟩ := mem_runBlocks.1 hm
      refine ⟨?_, ?_, hk, hr⟩
      · by_contra hc
        rw [runBlocks_small h (by omega) (by omega)] at hm
        simp at hm
      · by_contra hc
        have h0 := blockFull_iff.1 (runBlock_iff.1 hr).1
        have hlt : 2 ^ (Nat.log2 (u - 1) + 1) < 2 ^ j := Nat.pow_lt_pow_right (by omega) (by omega)
        have hk0 : k = 0 := by
          rw [show Nat.log2 (u - 1) + 1 - j = 0 by omega] at hk
          omega
        subst hk0
        have := hb _ (h0 (2 ^ (Nat.log2 (u - 1) + 1)) (Nat.div_eq_of_lt hlt))
        omega

theorem knownTries_pair {pad h : Nat} {cs : List (Coding × List Nat)} {Ts : List Nav} (H : List.Forall₂ (KnownTrie pad h) cs Ts) :
    ∃ as : List (Nav × (Nat → Nat → Prop)), as.map Prod.fst = Ts ∧ ∃ ts : List (Tr (h - 1)),
      List.Forall₂ (fun a t => RepB a.1 a.2 (leafF a.1) 1 (h - 1) 0 t 0 0) as ts ∧ List.Forall₂ (CTree 1 (h - 1)) (withRuns cs) ts ∧
      ∀ j k, (∃ a t, (a, t) ∈ as.zip ts ∧ BareAt 1 (h - 1) t j k ∧ a.2 j (0 + k * 2 ^ j)) ↔ ∃ c ∈ cs, cannotReadK pad h c j (k * 2 ^ j) := by
  induction H with
  | nil => exact ⟨[], rfl, [], .nil, .nil, by simp⟩
  | @cons c n cs Ts h1 _ ih =>
    obtain ⟨as, e1, ts, h2, h3, h4⟩ := ih
    obtain ⟨T, g1, g2, g3⟩ := h1.tree
    refine ⟨(n, cannotReadK pad h c) :: as, by simp [e1], T :: ts, .cons g1 h2, .cons g2 h3, fun j k => ?_⟩
    rw [List.exists_mem_cons_iff, ← h4 j k]
    constructor
    · rintro ⟨a, t, hm, hB, hbad⟩
      rw [List.zip_cons_cons, List.mem_cons] at hm
      rcases hm with e | hm
      · injection e with ea et
        subst ea et
        exact .inl (by simpa using hbad)
      · exact .inr ⟨a, t, hm, hB, hbad⟩
    · rintro (h | ⟨a, t, hm, hB, hbad⟩)
      · obtain ⟨k', e, hB⟩ := g3 _ _ h
        obtain rfl : k = k' := Nat.eq_of_mul_eq_mul_right (Nat.two_pow_pos j) e
        exact ⟨_, _, List.mem_cons_self, hB, by simpa using h⟩
      · exact ⟨a, t, List.mem_cons_of_mem _ hm, hB, hbad⟩

/-- C08 and C12, exactly. A run-aware parallel call on 1 to 16 tries of one height, each plain or run-encoded, that starts threads returns
`runsResult` iff it does not look at any block that a run-encoded flat trie cannot read. Otherwise it reads out of bounds. -/
theorem C08_par_runs_exact_partial {pad h : Nat} {cs : List (Coding × List Nat)} {Ts : List Nav} (hTs : List.Forall₂ (KnownTrie pad h) cs Ts)
    (hne : Ts ≠ []) (hlen : Ts.length ≤ 16) (env : Env) (hw : env.hw ≠ 0) (hw2 : env.hw < 2 ^ 16) (hcut : Nat.log2 env.hw + 2 ≤ h) :
    ((∀ c ∈ cs, c.1 = .flat → ∀ j k, unreadable pad h c.2 j k →
        visited (withRuns cs) (h - Nat.log2 env.hw) (Nat.log2 env.hw) j k = false) →
      intersect Ts true true env = .ok (runsResult (withRuns cs) (h - Nat.log2 env.hw) (Nat.log2 env.hw))) ∧
    (¬ (∀ c ∈ cs, c.1 = .flat → ∀ j k, unreadable pad h c.2 j k →
        visited (withRuns cs) (h - Nat.log2 env.hw) (Nat.log2 env.hw) j k = false) →
      intersect Ts true true env = .error .oob) := by
  obtain ⟨d, hd⟩ : ∃ d, h - 1 = d + 1 + Nat.log2 env.hw := ⟨h - 2 - Nat.log2 env.hw, by omega⟩
  obtain ⟨e, rfl⟩ : ∃ e, h = e + 1 := ⟨h - 1, by omega⟩
  rw [Nat.add_sub_cancel] at hd
  subst hd
  have hcs : withRuns cs ≠ [] := by
    intro h
    rw [withRuns, List.map_eq_nil_iff] at h
    subst h
    cases hTs
    exact hne rfl
  have hd : d + 1 + Nat.log2 env.hw ≤ 62 := by
    cases hTs with
    | nil => exact (hne rfl).elim
    | cons h _ => exact h.read.holds.depth
  have hh := forall2_imp_right hTs fun _ _ h => h.read.holds.height
  rw [Nat.add_sub_cancel] at hh
  obtain ⟨as, rfl, ts, h1, h2, h3⟩ := knownTries_pair hTs
  have A := agree_of h2 hcs
  have hbody := par_body_hits Prod.fst Prod.snd (fun a => leafF a.1) 1 (c := flatCfg (d + 1 + Nat.log2 env.hw + 1))
    (height := d + 1 + Nat.log2 env.hw + 1) (by simpa using hne) (flat_leafOKR_fst as _) h1 (by simpa using hlen) (by rfl) (by rfl)
    (show d + 1 + Nat.log2 env.hw + 1 < 64 by omega) hw hw2 (by omega)
  rw [exactOut_eq A, ← intersect_unfold hne hh] at hbody
  have hj : d + 1 + Nat.log2 env.hw + 1 - Nat.log2 env.hw = d + 1 + 1 := by omega
  rw [hj]
  have hiff : HitsPar Prod.snd 1 as ts ↔ ¬ (∀ c ∈ cs, c.1 = .flat → ∀ j k, unreadable pad (d + 1 + Nat.log2 env.hw + 1) c.2 j k →
        visited (withRuns cs) (d + 1 + 1) (Nat.log2 env.hw) j k = false) := by
    rw [hitsPar_iff A as]
    push Not
    simp only [ne_eq, Bool.not_eq_false]
    constructor
    · rintro ⟨j, k, hs, hv⟩
      obtain ⟨c, hc, hf, k', e, hu⟩ := (h3 j k).1 hs
      obtain rfl : k = k' := Nat.eq_of_mul_eq_mul_right (Nat.two_pow_pos j) e
      exact ⟨c, hc, of_decide_eq_true hf, j, k, hu, hv⟩
    · rintro ⟨c, hc, hf, j, k, hu, hv⟩
      exact ⟨j, k, (h3 j k).2 ⟨c, hc, decide_eq_true hf, k, rfl, hu⟩, hv⟩
  constructor
  · intro h
    rw [if_neg fun hc => hiff.1 hc h] at hbody
    exact hbody
  · intro h
    rw [if_pos (hiff.2 h)] at hbody
    exact hbody

/-- The parallel call reads out of bounds only if the sequential one does. -/
theorem C08_par_oob_seq_partial {pad h : Nat} {cs : List (Coding × List Nat)} {Ts : List Nav} (hTs : List.Forall₂ (KnownTrie pad h) cs Ts)
    (hne : Ts ≠ []) (hlen : Ts.length ≤ 16) (env : Env) (hw : env.hw ≠ 0) (hw2 : env.hw < 2 ^ 16) (hcut : Nat.log2 env.hw + 2 ≤ h) :
    (∃ R, intersect Ts true true env = .ok R) ∨
      intersect Ts true true env = .error .oob ∧ intersect Ts true false env = .error .oob := by
  obtain ⟨h1, h2⟩ := C08_par_runs_exact_partial hTs hne hlen env hw hw2 hcut
  by_cases hv : ∀ c ∈ cs, c.1 = .flat → ∀ j k, unreadable pad h c.2 j k →
      visited (withRuns cs) (h - Nat.log2 env.hw) (Nat.log2 env.hw) j k = false
  · exact .inl ⟨_, h1 hv⟩
  refine .inr ⟨h2 hv, ?_⟩
  have hr : List.Forall₂ (ReadTrie pad h) (cs.map fun c => (decide (c.1 = .flat), c.2)) Ts :=
    List.forall₂_map_left_iff.2 (hTs.imp fun _ _ H => H.read)
  refine (C08_seq_runs_exact_partial hr hne hlen env hw).2 fun hm => hv fun c hc hf j k hu => ?_
  obtain ⟨S, hS, hmiss⟩ := hm (decide (c.1 = .flat), c.2) (List.mem_map.2 ⟨c, hc, rfl⟩) (by simpa using hf) j k hu
  rw [visited, Bool.and_eq_false_iff]
  right
  rw [meetsAll, List.all_eq_false]
  refine ⟨S, ?_, ?_⟩
  · simpa [withRuns] using hS
  · simpa using hmiss

/-- Parallel calls that do not start threads are sequential. -/
theorem par_few_levels {pad h : Nat} {sets : List (List Nat)} {Ts : List Nav} (hTs : List.Forall₂ (BuiltTrie pad h) sets Ts) (h2 : 2 ≤ h)
    (runs : Bool) (env : Env) (hcut : ¬ Nat.log2 env.hw + 2 ≤ h) : intersect Ts runs true env = intersect Ts runs false env := by
  cases hTs with
  | nil => rfl
  | @cons S T sets Ts hT _ =>
    obtain ⟨c, hc⟩ := KnownTrie.built.1 hT
    have e := hc.read.holds.height
    have hd := hc.read.holds.depth
    rw [show h - 1 + 1 = h by omega] at e
    rw [intersect, intersect]
    split
    · rfl
    · rw [intersectBody, intersectBody, e]
      simp only [true_and, Bool.false_eq_true, false_and, if_false]
      rw [if_neg (show ¬ Nat.log2 env.hw ≤ (h + 2 ^ 64 - 2) % 2 ^ 64 by
        rw [show h + 2 ^ 64 - 2 = h - 2 + 2 ^ 64 by omega, Nat.add_mod_right, Nat.mod_eq_of_lt (by omega)]
        omega)]

/-- C16: all that a run-aware call on 1 to 16 tries of one height can do, in both modes, for all tries that can be built and every height:
return distinct common elements, or read out of bounds. `C08_seq_runs_exact_partial`, `C08_par_runs_exact_partial`, `par_few_levels` and
`C32_height1_intersect` say exactly which. -/
theorem C16_runs_outcomes {pad h : Nat} {sets : List (List Nat)} {Ts : List Nav} (hTs : List.Forall₂ (BuiltTrie pad h) sets Ts)
    (hne : Ts ≠ []) (hlen : Ts.length ≤ 16) (parallel : Bool) (env : Env) (hw : env.hw ≠ 0) (hw2 : env.hw < 2 ^ 16) :
    (∃ R, intersect Ts true parallel env = .ok R ∧ (∀ x ∈ R, ∀ S ∈ sets, x ∈ S) ∧ R.Nodup) ∨ intersect Ts true parallel env = .error .oob := by
  obtain ⟨cs, hcs, rfl⟩ : ∃ cs : List (Coding × List Nat), List.Forall₂ (KnownTrie pad h) cs Ts ∧ cs.map Prod.snd = sets := by
    clear hne hlen
    induction hTs with
    | nil => exact ⟨[], .nil, rfl⟩
    | cons h1 _ ih =>
      obtain ⟨cs, h2, e⟩ := ih
      obtain ⟨c, hc⟩ := KnownTrie.built.1 h1
      exact ⟨(c, _) :: cs, .cons hc h2, by simp [e]⟩
  have hseq : (∃ R, intersect Ts true false env = .ok R) ∨ intersect Ts true false env = .error .oob := by
    have hr : List.Forall₂ (ReadTrie pad h) (cs.map fun c => (decide (c.1 = .flat), c.2)) Ts :=
      List.forall₂_map_left_iff.2 (hcs.imp fun _ _ H => H.read)
    obtain ⟨h1, h2⟩ := C08_seq_runs_exact_partial hr hne hlen env hw
    by_cases hv : ∀ c ∈ cs.map (fun c => (decide (c.1 = Coding.flat), c.2)), c.1 = true → ∀ j k, unreadable pad h c.2 j k →
        blockMissed ((cs.map fun c => (decide (c.1 = Coding.flat), c.2)).map Prod.snd) j k
    · obtain ⟨R, e, _⟩ := h1 hv
      exact .inl ⟨R, e⟩
    · exact .inr (h2 hv)
  cases parallel with
  | false =>
    rcases hseq with ⟨R, e⟩ | e
    · obtain ⟨h1, h2⟩ := C08_seq_runs_returned hTs e
      exact .inl ⟨R, e, fun x hx => (h2 x).1 hx, h1.imp fun h => Nat.ne_of_lt h⟩
    · exact .inr e
  | true =>
    have : (∃ R, intersect Ts true true env = .ok R) ∨ intersect Ts true true env = .error .oob := by
      by_cases h2 : 2 ≤ h
      · by_cases hcut : Nat.log2 env.hw + 2 ≤ h
        · exact (C08_par_oob_seq_partial hcs hne hlen env hw hw2 hcut).imp id And.left
        · rw [par_few_levels hTs h2 true env hcut]
          exact hseq
      · obtain rfl : h = 1 := by
          cases hcs with
          | nil => exact (hne rfl).elim
          | cons hT _ =>
            have := (KnownTrie.built.2 ⟨_, hT⟩).pos
            omega
        obtain ⟨R, _, h⟩ := C32_height1_intersect hTs hne hlen
        have := (h true env hw).2 (by omega)
        split at this
        · exact .inl ⟨R, this⟩
        · exact .inr this
    rcases this with ⟨R, e⟩ | e
    · exact .inl ⟨R, e, C14_parallel_runs_returned_all hTs hw2 e⟩
    · exact .inr e

theorem HoldsB.okOob {d : Nat} {S : List Nat} {bad : Nat → Nat → Prop} {n : Nav} (h : HoldsB d S bad n) : OkOob (n.getNode 0 0) := by
  obtain ⟨T, h1, _⟩ := h.tree
  cases d with
  | zero => exact .inl ⟨_, h1.2.1⟩
  | succ d =>
    by_cases hb : T.bare = true ∧ bad (d + 1 + 1) 0
    · exact .inr (h1.1 hb.1 hb.2)
    · exact .inl ⟨_, h1.2.1 hb⟩

/-- C16: with more than 16 tries every call reads its arrays out of bounds, for all tries that can be built. -/
theorem C16_more_than_16_all {pad h : Nat} {sets : List (List Nat)} {Ts : List Nav} (hTs : List.Forall₂ (BuiltTrie pad h) sets Ts)
    (hlen : 16 < Ts.length) (runs parallel : Bool) (env : Env) (hw : env.hw ≠ 0) : intersect Ts runs parallel env = .error .oob := by
  have hne : Ts ≠ [] := by rintro rfl; simp at hlen
  have hr : ∀ n ∈ Ts, n.height = h - 1 + 1 ∧ OkOob (n.getNode 0 0) := forall2_imp_right hTs fun _ _ H => by
    obtain ⟨c, hc⟩ := KnownTrie.built.1 H
    exact ⟨hc.read.holds.height, hc.read.holds.okOob⟩
  rw [intersect_unfold hne fun n hn => (hr n hn).1]
  exact body_oob hw hlen (fun n hn => (hr n hn).2) (by simp [flatCfg])

namespace Ex

theorem flatCollapsed_known : KnownTrie 0 4 (.flat, [0, 1, 2, 3, 12, 13, 14, 15]) (flatCollapsed.nav 0) :=
  .flat (u := 16) (t := ⟨4, 0, false, false, [true, true, true, false, false, true, true, true, true, true],
      [true, true, true, true, true, true, true, true]⟩)
    (by decide +kernel) (by decide +kernel) (by decide) (by decide) (by decide +kernel) (by decide +kernel) rfl

def levelHalf : LevelTrie := ⟨2, true, false, [[false, true], [false, false], [], []]⟩

theorem levelHalf_known : KnownTrie 0 4 (.level, [8, 9, 10, 11, 12, 13, 14, 15]) (levelHalf.nav false 0) :=
  .level (u := 16) (t := ⟨0, false, false, [[false, true], [true, true], [true, true, true, true],
      [true, true, true, true, true, true, true, true]]⟩) false
    (by decide +kernel) (by decide +kernel) (by decide) (by decide) (by decide +kernel) (by decide +kernel) rfl

end Ex

/-- The flat trie cannot read the block of 12 to 15. On 4 hardware threads the call does not get there, as the block of 8 to 15 is collapsed
in the other trie, and loses these elements; on 2 hardware threads the thread for 8 to 15 reads it, out of bounds. -/
example : List.Forall₂ (KnownTrie 0 4) [(.flat, [0, 1, 2, 3, 12, 13, 14, 15]), (.level, [8, 9, 10, 11, 12, 13, 14, 15])]
      [Ex.flatCollapsed.nav 0, Ex.levelHalf.nav false 0] ∧ unreadable 0 4 [0, 1, 2, 3, 12, 13, 14, 15] 2 3 ∧
    visited (withRuns [(.flat, [0, 1, 2, 3, 12, 13, 14, 15]), (.level, [8, 9, 10, 11, 12, 13, 14, 15])]) 2 2 2 3 = false ∧
    visited (withRuns [(.flat, [0, 1, 2, 3, 12, 13, 14, 15]), (.level, [8, 9, 10, 11, 12, 13, 14, 15])]) 3 1 2 3 = true ∧
    intersect [Ex.flatCollapsed.nav 0, Ex.levelHalf.nav false 0] true true ⟨4, [], []⟩ = .ok [] ∧
    intersect [Ex.flatCollapsed.nav 0, Ex.levelHalf.nav false 0] true true ⟨2, [], []⟩ = .error .oob ∧
    intersect [Ex.flatCollapsed.nav 0, Ex.levelHalf.nav false 0] true false ⟨4, [], []⟩ = .error .oob :=
  ⟨.cons Ex.flatCollapsed_known (.cons Ex.levelHalf_known .nil), ⟨by decide +kernel, by decide +kernel, by decide +kernel⟩,
    by decide +kernel, by decide +kernel, by decide +kernel, by decide +kernel, by decide +kernel⟩

example : List.Forall₂ (BuiltTrie 0 4) (List.replicate 17 [0, 1, 2, 3, 12, 13, 14, 15]) (List.replicate 17 (Ex.flatCollapsed.nav 0)) := by
  have h := KnownTrie.built.2 ⟨_, Ex.flatCollapsed_known⟩
  generalize 17 = n
  induction n with
  | zero => exact .nil
  | succ n ih => exact .cons h ih

end CBT
