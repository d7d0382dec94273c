import Verif.Model.RankBench
import Verif.Proof.SerialRt
import Verif.Proof.LevelRep
import Verif.Proof.Edges

/-!
# Helper lemmas about `Model/RankBench`
-/

namespace CBT

theorem readBenchTrie_serialize (B : BvIO) (K : RankIO) {t : FlatTrie} (hb : t.bTrie.length < 2 ^ 64) (hl : t.lastLevel.length < 2 ^ 64)
    (rest : Bytes) : readBenchTrie B K ((t.serialize B B K true).1 ++ rest) = .ok (t.bTrie, rest) := by
  simp only [FlatTrie.serialize, if_true, List.append_assoc, readBenchTrie]
  rw [show 6 = (header t.height t.heightWithRuns t.emptyTrie t.runsEncoded).length from (length_header ..).symm, List.drop_left,
    B.roundTrip _ _ hb, R_bind_ok]
  simp only
  rw [B.roundTrip _ _ hl, R_bind_ok]
  simp only
  rw [K.roundTrip _ _ hb, R_bind_ok]

theorem readBench_serialize (B : BvIO) (K : RankIO) (ts : List FlatTrie) (hb : ∀ t ∈ ts, t.bTrie.length < 2 ^ 64)
    (hl : ∀ t ∈ ts, t.lastLevel.length < 2 ^ 64) {a b : Nat} (ha : a < 2 ^ 32) (hb' : b < 2 ^ 32) (rest : Bytes) :
    readBench B K ts.length (leBytes 4 a ++ leBytes 4 b ++ ts.flatMap (fun t => (t.serialize B B K true).1) ++ rest) =
      .ok (ts.map (·.bTrie)) := by
  rw [readBench, List.append_assoc, List.append_assoc, readLE_leBytes 4 _ _ (by omega), R_bind_ok]
  simp only
  rw [readLE_leBytes 4 _ _ (by omega), R_bind_ok]
  simp only
  rw [readMany_flatMap (f := (·.bTrie)) ts rest (fun t ht rest => readBenchTrie_serialize B K (hb t ht) (hl t ht) rest), R_bind_ok]

/-- What the conversion to `int` and back makes of a number, modulo `2^64`. -/
def signed (x : Nat) : Nat := if x % 2 ^ 32 < 2 ^ 31 then x % 2 ^ 32 else x % 2 ^ 32 + 2 ^ 64 - 2 ^ 32

theorem signed_small {x : Nat} (h : x < 2 ^ 31) : signed x = x := by
  rw [signed, Nat.mod_eq_of_lt (by omega), if_pos h]

theorem signed_bmod (x : Nat) : (signed x : Int) % 2 ^ 64 = (Int.bmod x (2 ^ 32)) % 2 ^ 64 := by
  unfold signed
  rw [Int.bmod_def]
  split <;> split <;> omega

theorem sum_congr_mod {m : Int} {f : Nat → Nat} {g : Nat → Int} (h : ∀ x, (f x : Int) % m = g x % m) (xs : List Nat) :
    ((xs.map f).sum : Int) % m = (xs.map g).sum % m := by
  induction xs with
  | nil => simp
  | cons x xs ih =>
    simp only [List.map_cons, List.sum_cons, Int.natCast_add]
    rw [Int.add_emod, ih, h, ← Int.add_emod]

theorem sum_congr_mod₂ {α : Type} {m : Int} {f : Nat → Nat} {g : Nat → Int} (h : ∀ x, (f x : Int) % m = g x % m) (e : α → List Nat)
    (xs : List α) : ((xs.map fun a => ((e a).map f).sum).sum : Int) % m = (xs.map fun a => ((e a).map g).sum).sum % m := by
  induction xs with
  | nil => simp
  | cons x xs ih =>
    simp only [List.map_cons, List.sum_cons, Int.natCast_add]
    rw [Int.add_emod, ih, sum_congr_mod h, ← Int.add_emod]

theorem sumRanks_ok {v : BV} : (ps : List Nat) → (total : Nat) → total < 2 ^ 64 → (∀ p ∈ ps, p ≤ v.length) →
    sumRanks v total ps = .ok ((total + (ps.map fun p => signed ((v.take p).count true)).sum) % 2 ^ 64)
  | [], total, ht, _ => by rw [sumRanks, List.map_nil, List.sum_nil, Nat.add_zero, Nat.mod_eq_of_lt ht]
  | p :: ps, total, ht, h => by
    rw [sumRanks, rank1_ok (h p (by simp)), R_bind_ok,
      sumRanks_ok ps _ (show addInt _ _ < 2 ^ 64 from Nat.mod_lt _ (by decide)) fun q hq => h q (List.mem_cons_of_mem _ hq), List.map_cons, List.sum_cons]
    simp only [addInt, signed]
    congr 1
    omega

theorem benchPositions_lt {rand : Nat → Nat} {v : BV} {p : Nat} (h : p ∈ benchPositions rand v) : p < v.length := by
  simp only [benchPositions, List.mem_map, List.mem_range] at h
  obtain ⟨j, hj, rfl⟩ := h
  exact Nat.mod_lt _ (by omega)

theorem length_benchPositions (rand : Nat → Nat) (v : BV) : (benchPositions rand v).length = v.length / 50 := by
  simp [benchPositions]

theorem length_benchRandom (rand : Nat → Nat → Nat) : (vs : List BV) → (i : Nat) → (benchRandom rand i vs).length = vs.length
  | [], _ => rfl
  | v :: vs, i => by rw [benchRandom, List.length_cons, List.length_cons, length_benchRandom rand vs]

theorem getElem_benchRandom (rand : Nat → Nat → Nat) : (vs : List BV) → (i k : Nat) → (h : k < vs.length) →
    (h' : k < (benchRandom rand i vs).length) → (benchRandom rand i vs)[k] = benchPositions (rand (i + k)) vs[k]
  | v :: vs, i, 0, _, _ => rfl
  | v :: vs, i, k + 1, h, h' => by
    simp only [benchRandom, List.getElem_cons_succ]
    rw [getElem_benchRandom rand vs (i + 1) k (by simpa using h), show i + 1 + k = i + (k + 1) by omega]

theorem benchRank_random (il : Bool) (rand : Nat → Nat → Nat) : (vs : List BV) → (i total : Nat) → total < 2 ^ 64 →
    (∀ v ∈ vs, v.length < 50 * 2 ^ 32) →
    benchRank il total vs (benchRandom rand i vs) =
      .ok (if il = true ∧ [] ∈ vs then none else
        some ((total + ((vs.zip (benchRandom rand i vs)).map fun x => (x.2.map fun p => signed ((x.1.take p).count true)).sum).sum) %
          2 ^ 64))
  | [], i, total, ht, _ => by
    rw [benchRank, if_neg (by simp)]
    simp only [benchRandom, List.zip_nil_left, List.map_nil, List.sum_nil, Nat.add_zero, Nat.mod_eq_of_lt ht]
  | v :: vs, i, total, ht, h => by
    rw [benchRandom, benchRank]
    by_cases hz : il = true ∧ v.length = 0
    · rw [if_pos hz, if_pos ⟨hz.1, by rw [List.eq_nil_of_length_eq_zero hz.2]; simp⟩]
    · rw [if_neg hz, if_neg (by rw [length_benchPositions]; have := h v (by simp); omega),
        sumRanks_ok _ _ ht fun p hp => Nat.le_of_lt (benchPositions_lt hp), R_bind_ok,
        benchRank_random il rand vs _ _ (Nat.mod_lt _ (by decide)) fun w hw => h w (List.mem_cons_of_mem _ hw)]
      have hiff : (il = true ∧ [] ∈ v :: vs) ↔ (il = true ∧ [] ∈ vs) := by
        constructor
        · rintro ⟨h1, h2⟩
          refine ⟨h1, ?_⟩
          rcases List.mem_cons.mp h2 with h2 | h2
          · exact absurd ⟨h1, by rw [← h2]; rfl⟩ hz
          · exact h2
        · exact fun ⟨h1, h2⟩ => ⟨h1, List.mem_cons_of_mem _ h2⟩
      by_cases hc : il = true ∧ [] ∈ vs
      · rw [if_pos hc, if_pos (hiff.mpr hc)]
      · rw [if_neg hc, if_neg (fun h => hc (hiff.mp h)), List.zip_cons_cons, List.map_cons, List.sum_cons]
        simp only
        congr 2
        omega

open Spec in
/-- The first vector of a flat trie that the constructor makes is not empty, and is short for a short list. -/
theorem flat_first_vector {S : List Nat} {u : Nat} (hS : ValidSet S u) (hlen : S.length < 2 ^ 24) (hu : 3 ≤ u) (hu' : u ≤ 2 ^ 62) :
    ∃ t, flatCtor S u = .ok t ∧ t.bTrie ≠ [] ∧ t.bTrie.length < 2 ^ 31 ∧ t.lastLevel.length < 2 ^ 64 := by
  obtain ⟨T, hc, hne, hT⟩ := flat_built hS (by omega) hu hu'
  obtain ⟨h1, h2⟩ := log2_bounds hu hu'
  have h3 := (size_le hne hT hS.increasing (fun x hx => lt_height (hS.below x hx))).1
  have h4 : S.length * Nat.log2 (u - 1) ≤ S.length * 61 := Nat.mul_le_mul_left _ h2
  refine ⟨_, hc, ?_, ?_, ?_⟩
  · obtain ⟨k, hk⟩ : ∃ k, Nat.log2 (u - 1) = k + 1 := ⟨Nat.log2 (u - 1) - 1, by omega⟩
    generalize Nat.log2 (u - 1) = d at *
    subst hk
    simp [flatOf, flatBits, bitsOf, nodeBits]
  · simp only [flatOf]
    omega
  · simp only [flatOf, length_leafBits]
    omega

/-- The run-encoded trie of a full tree. -/
theorem flat_encode_full {k pad hw : Nat} {runs : Bool} {T : Tr (k + 1)} (hne : NE 1 (k + 1) T) (hf : full 1 (k + 1) T = true) :
    ∃ t', (flatOf (k + 1) T hw runs).encodeRuns pad = .ok t' ∧ t'.bTrie = [] := by
  rw [FlatTrie.encodeRuns]
  simp only [flatOf, Nat.add_eq_zero_iff, one_ne_zero, and_false, if_false, Nat.add_sub_cancel]
  have hw' := writeCompress_start (flatOf_rep (hw := hw) (pad := pad) (runs := runs) hne.nz) hne
  simp only [flatOf] at hw'
  rw [hw', R_bind_ok]
  have hl := levelsF_full hf
  rw [if_neg (by omega)] at hl
  obtain ⟨e1, e2, e3⟩ := flat_write (Ls := []) (k := k + 1) (B := [false, false]) (by simp) (by simp)
    (L := levelsF (k + 1) [prune 1 (k + 1) T]) (by rw [hl]; rfl)
  simp only
  rw [e1, e2]
  simp only [R_bind_ok]
  rw [e3]
  exact ⟨_, rfl, rfl⟩

/-- A run-encoded tree that is not full has a one in its root. -/
theorem flat_encode_part {k pad hw : Nat} {runs : Bool} {T : Tr (k + 1)} (hne : NE 1 (k + 1) T) (hf : full 1 (k + 1) T = false) {t' : FlatTrie}
    (he : (flatOf (k + 1) T hw runs).encodeRuns pad = .ok t') : t'.bTrie ≠ [] := by
  have hroot : true ∈ flatBits (k + 1) [prune 1 (k + 1) T] := by
    rw [flatBits, prune_not_full hf]
    have := hne.1
    cases hl : T.l <;> cases hr : T.r <;> simp_all [bitsOf, nodeBits, Tr.bare]
  rcases flat_encodeRuns_ok (pad := pad) rfl (flatOf_rep (hw := hw) (runs := runs) hne.nz) hne with ⟨-, h⟩ | ⟨-, b, z, m, hb, -, h⟩
  · rw [h] at he
    injection he with he
    rw [← he]
    exact List.ne_nil_of_mem hroot
  · rw [h] at he
    injection he with he
    rw [← he]
    intro hn
    simp only at hn
    rw [hb, hn, List.nil_append] at hroot
    exact absurd (List.eq_of_mem_replicate hroot) (by decide)

open Spec in
/-- The first vector of a run-encoded flat trie is empty exactly if the list has every number that fits. -/
theorem flat_runs_vector {S : List Nat} {u : Nat} (hS : ValidSet S u) (hlen : S.length < 2 ^ 24) (hu : 3 ≤ u) (hu' : u ≤ 2 ^ 62) (pad : Nat) :
    ∃ t t', flatCtor S u = .ok t ∧ t.encodeRuns pad = .ok t' ∧ (t'.bTrie = [] ↔ ∀ y < 2 ^ t.height, y ∈ S) ∧ t'.bTrie.length < 2 ^ 31 ∧
      t'.lastLevel.length < 2 ^ 64 := by
  obtain ⟨T, hc, hne, hT⟩ := flat_built hS (by omega) hu hu'
  obtain ⟨h1, h2⟩ := log2_bounds hu hu'
  have h3 := (size_le hne hT hS.increasing (fun x hx => lt_height (hS.below x hx))).1
  have h4 : S.length * Nat.log2 (u - 1) ≤ S.length * 61 := Nat.mul_le_mul_left _ h2
  obtain ⟨t', he, hbits, -⟩ := flatOf_encode_bits (pad := pad) (hw := 0) (runs := false) hne
  have h5 := prune_size (b := 1) _ [T] [prune 1 _ T] (List.Sublist.refl _)
  have h6 := congrArg List.length hbits
  simp only [List.length_append, length_leafBits] at h6
  refine ⟨_, t', hc, he, ?_, by omega, by omega⟩
  obtain ⟨k, hk⟩ : ∃ k, Nat.log2 (u - 1) = k + 1 := ⟨Nat.log2 (u - 1) - 1, by omega⟩
  generalize Nat.log2 (u - 1) = d at *
  subst hk
  cases hf : full 1 (k + 1) T with
  | true =>
    obtain ⟨t'', he', hb⟩ := flat_encode_full (hw := 0) (pad := pad) (runs := false) hne hf
    rw [he] at he'
    injection he' with he'
    refine ⟨fun _ y hy => ?_, fun _ => by rw [he', hb]⟩
    have hy' : y < 2 ^ (k + 1 + 1) := hy
    have := full_has hf y hy'
    rw [hT y hy'] at this
    exact of_decide_eq_true this
  | false =>
    refine ⟨fun h => absurd h (flat_encode_part hne hf he), fun h => ?_⟩
    have := full_of_has (k + 1) T hne fun y hy => by
      rw [hT y hy]
      exact decide_eq_true (h y hy)
    rw [hf] at this
    cases this

/-- A list of choices from a choice for each. -/
theorem forall₂_of_exists {α β : Type} {P : α → β → Prop} : (xs : List α) → (∀ x ∈ xs, ∃ y, P x y) → ∃ ys, List.Forall₂ P xs ys
  | [], _ => ⟨[], .nil⟩
  | x :: xs, h => by
    obtain ⟨y, h1⟩ := h x (by simp)
    obtain ⟨ys, h2⟩ := forall₂_of_exists xs fun x hx => h x (List.mem_cons_of_mem _ hx)
    exact ⟨y :: ys, .cons h1 h2⟩

theorem forall₂_mem_right {α β : Type} {P : α → β → Prop} {xs : List α} {ys : List β} (h : List.Forall₂ P xs ys) :
    ∀ y ∈ ys, ∃ x ∈ xs, P x y := by
  induction h with
  | nil => simp
  | cons h1 _ ih =>
    intro y hy
    rcases List.mem_cons.mp hy with rfl | hy
    · exact ⟨_, by simp, h1⟩
    · obtain ⟨x, hx, hp⟩ := ih y hy
      exact ⟨x, List.mem_cons_of_mem _ hx, hp⟩

theorem forall₂_mem_left {α β : Type} {P : α → β → Prop} {xs : List α} {ys : List β} (h : List.Forall₂ P xs ys) :
    ∀ x ∈ xs, ∃ y ∈ ys, P x y := by
  induction h with
  | nil => simp
  | cons h1 _ ih =>
    intro x hx
    rcases List.mem_cons.mp hx with rfl | hx
    · exact ⟨_, by simp, h1⟩
    · obtain ⟨y, hy, hp⟩ := ih x hx
      exact ⟨y, List.mem_cons_of_mem _ hy, hp⟩

end CBT
