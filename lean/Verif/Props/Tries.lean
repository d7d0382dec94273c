import Verif.Proof.Inter
import Verif.Proof.FlatCollapse

/-!
# The tries callers pass to `Intersect`

`PlainTrie pad h S n`: `n` is the virtual interface of a trie built by a constructor of the library from the valid set `S`,
with height `h`. `RunsTrie`: or run-encoded after that. `pad` is the number of zero bits readable after a bit vector.
-/

namespace CBT

open Spec

inductive PlainTrie (pad h : Nat) (S : List Nat) : Nav → Prop
  | flat {u : Nat} {t : FlatTrie} : ValidSet S u → S.length < 2 ^ 32 → 3 ≤ u → u ≤ 2 ^ 62 → flatCtor S u = .ok t → t.height = h →
    PlainTrie pad h S (t.nav pad)
  | level {u : Nat} {t : LevelTrie} (il : Bool) : ValidSet S u → S.length < 2 ^ 64 → 2 ≤ u → u ≤ 2 ^ 63 → levelCtor S u = .ok t →
    t.height = h → PlainTrie pad h S (t.nav il pad)

/-- A run-encoded flat trie has to have a populated aligned block of four that is not full, or the bits of its last level
have to be readable after `bTrie`: by `C04_flat_runs_decode_iff` it cannot even be decoded otherwise. -/
inductive RunsTrie (pad h : Nat) (S : List Nat) : Nav → Prop
  | plain {n : Nav} : PlainTrie pad h S n → RunsTrie pad h S n
  | flat {u : Nat} {t t' : FlatTrie} : ValidSet S u → S.length < 2 ^ 32 → 3 ≤ u → u ≤ 2 ^ 62 → flatCtor S u = .ok t →
    t.encodeRuns pad = .ok t' → t'.height = h → (∃ x ∈ S, ∃ y, y / 4 = x / 4 ∧ y ∉ S) ∨ t'.lastLevel.length ≤ pad →
    RunsTrie pad h S (t'.nav pad)
  | level {u : Nat} {t t' : LevelTrie} (il : Bool) : ValidSet S u → S.length < 2 ^ 64 → 2 ≤ u → u ≤ 2 ^ 63 →
    levelCtor S u = .ok t → t.encodeRuns il pad = .ok t' → t'.height = h → RunsTrie pad h S (t'.nav il pad)

/-- A fast trie with words of `2^lg` bits; the members the constructor leaves unwritten are arbitrary. -/
inductive FastPlain (lg pad h : Nat) (S : List Nat) : FNav → Prop
  | mk {u : Nat} {junk : FastJunk} {t : FastTrie} : ValidSet S u → S.length < 2 ^ 32 → 2 ^ (lg - 1) < u → u ≤ 2 ^ 62 →
    fastCtor lg junk S u = .ok t → t.height = h → FastPlain lg pad h S (t.nav pad)

inductive FastRuns (lg pad h : Nat) (S : List Nat) : FNav → Prop
  | plain {n : FNav} : FastPlain lg pad h S n → FastRuns lg pad h S n
  | runs {u : Nat} {junk : FastJunk} {t t' : FastTrie} : ValidSet S u → S.length < 2 ^ 32 → 2 ^ (lg - 1) < u → u ≤ 2 ^ 62 →
    fastCtor lg junk S u = .ok t → t.encodeRuns lg pad = .ok t' → t'.height = h → FastRuns lg pad h S (t'.nav pad)

/-- `RunsTrie` with the information whether the trie was run-encoded. -/
inductive CodedTrie (pad h : Nat) : Bool × List Nat → Nav → Prop
  | plain {S : List Nat} {n : Nav} : PlainTrie pad h S n → CodedTrie pad h (false, S) n
  | flat {S : List Nat} {u : Nat} {t t' : FlatTrie} : ValidSet S u → S.length < 2 ^ 32 → 3 ≤ u → u ≤ 2 ^ 62 → flatCtor S u = .ok t →
    t.encodeRuns pad = .ok t' → t'.height = h → (∃ x ∈ S, ∃ y, y / 4 = x / 4 ∧ y ∉ S) ∨ t'.lastLevel.length ≤ pad →
    CodedTrie pad h (true, S) (t'.nav pad)
  | level {S : List Nat} {u : Nat} {t t' : LevelTrie} (il : Bool) : ValidSet S u → S.length < 2 ^ 64 → 2 ≤ u → u ≤ 2 ^ 63 →
    levelCtor S u = .ok t → t.encodeRuns il pad = .ok t' → t'.height = h → CodedTrie pad h (true, S) (t'.nav il pad)

inductive FastCoded (lg pad h : Nat) : Bool × List Nat → FNav → Prop
  | plain {S : List Nat} {n : FNav} : FastPlain lg pad h S n → FastCoded lg pad h (false, S) n
  | runs {S : List Nat} {u : Nat} {junk : FastJunk} {t t' : FastTrie} : ValidSet S u → S.length < 2 ^ 32 → 2 ^ (lg - 1) < u → u ≤ 2 ^ 62 →
    fastCtor lg junk S u = .ok t → t.encodeRuns lg pad = .ok t' → t'.height = h → FastCoded lg pad h (true, S) (t'.nav pad)

/-- Which trie was built from a set. -/
inductive Coding
  | plain
  | flat
  | level
deriving DecidableEq

/-- It is run-encoded. -/
def Coding.runs : Coding → Bool
  | .plain => false
  | _ => true

/-- The sets with the information which tries are run-encoded. -/
def withRuns (cs : List (Coding × List Nat)) : List (Bool × List Nat) := cs.map fun c => (c.1.runs, c.2)

/-- A trie built from the set, and which; without the condition of `CodedTrie.flat`. -/
inductive KnownTrie (pad h : Nat) : Coding × List Nat → Nav → Prop
  | plain {S : List Nat} {n : Nav} : PlainTrie pad h S n → KnownTrie pad h (.plain, S) n
  | flat {S : List Nat} {u : Nat} {t t' : FlatTrie} : ValidSet S u → S.length < 2 ^ 32 → 3 ≤ u → u ≤ 2 ^ 62 → flatCtor S u = .ok t →
    t.encodeRuns pad = .ok t' → t'.height = h → KnownTrie pad h (.flat, S) (t'.nav pad)
  | level {S : List Nat} {u : Nat} {t t' : LevelTrie} (il : Bool) : ValidSet S u → S.length < 2 ^ 64 → 2 ≤ u → u ≤ 2 ^ 63 →
    levelCtor S u = .ok t → t.encodeRuns il pad = .ok t' → t'.height = h → KnownTrie pad h (.level, S) (t'.nav il pad)

theorem KnownTrie.coded {pad h : Nat} {c : Coding} {S : List Nat} {n : Nav} (H : KnownTrie pad h (c, S) n)
    (hc : c = .flat → ∃ x ∈ S, ∃ y, y / 4 = x / 4 ∧ y ∉ S) : CodedTrie pad h (c.runs, S) n := by
  cases H with
  | plain H => exact .plain H
  | flat h1 h2 h3 h4 h5 h6 h7 => exact .flat h1 h2 h3 h4 h5 h6 h7 (.inl (hc rfl))
  | level il h1 h2 h3 h4 h5 h6 h7 => exact .level il h1 h2 h3 h4 h5 h6 h7

theorem RunsTrie.coded {pad h : Nat} {S : List Nat} {n : Nav} : RunsTrie pad h S n ↔ ∃ c, CodedTrie pad h (c, S) n := by
  constructor
  · rintro (h | ⟨h1, h2, h3, h4, h5, h6, h7, h8⟩ | ⟨il, h1, h2, h3, h4, h5, h6, h7⟩)
    · exact ⟨_, .plain h⟩
    · exact ⟨_, .flat h1 h2 h3 h4 h5 h6 h7 h8⟩
    · exact ⟨_, .level il h1 h2 h3 h4 h5 h6 h7⟩
  · rintro ⟨c, h | ⟨h1, h2, h3, h4, h5, h6, h7, h8⟩ | ⟨il, h1, h2, h3, h4, h5, h6, h7⟩⟩
    · exact .plain h
    · exact .flat h1 h2 h3 h4 h5 h6 h7 h8
    · exact .level il h1 h2 h3 h4 h5 h6 h7

theorem FastRuns.coded {lg pad h : Nat} {S : List Nat} {n : FNav} : FastRuns lg pad h S n ↔ ∃ c, FastCoded lg pad h (c, S) n := by
  constructor
  · rintro (h | ⟨h1, h2, h3, h4, h5, h6, h7⟩)
    · exact ⟨_, .plain h⟩
    · exact ⟨_, .runs h1 h2 h3 h4 h5 h6 h7⟩
  · rintro ⟨c, h | ⟨h1, h2, h3, h4, h5, h6, h7⟩⟩
    · exact .plain h
    · exact .runs h1 h2 h3 h4 h5 h6 h7

theorem CodedTrie.runs {pad h : Nat} {c : Bool × List Nat} {n : Nav} (H : CodedTrie pad h c n) : RunsTrie pad h c.2 n :=
  RunsTrie.coded.2 ⟨c.1, H⟩

theorem FastCoded.toRuns {lg pad h : Nat} {c : Bool × List Nat} {n : FNav} (H : FastCoded lg pad h c n) : FastRuns lg pad h c.2 n :=
  FastRuns.coded.2 ⟨c.1, H⟩

theorem CodedTrie.uncoded {pad h : Nat} {S : List Nat} {n : Nav} (H : CodedTrie pad h (false, S) n) : PlainTrie pad h S n := by
  cases H; assumption

theorem FastCoded.uncoded {lg pad h : Nat} {S : List Nat} {n : FNav} (H : FastCoded lg pad h (false, S) n) :
    FastPlain lg pad h S n := by
  cases H; assumption

theorem level_depth {u : Nat} (hu : 2 ≤ u) (hu' : u ≤ 2 ^ 63) : Nat.log2 (u - 1) ≤ 62 := by
  have h0 : u - 1 ≠ 0 := by omega
  have h2 : Nat.log2 (u - 1) < 63 := (Nat.log2_lt h0).2 (by omega)
  omega

theorem PlainTrie.holds {pad h : Nat} {S : List Nat} {n : Nav} (H : PlainTrie pad h S n) : HoldsP (h - 1) S n := by
  cases H with
  | flat hS hlen hu hu' hc hh =>
    obtain ⟨T, hc', hne, hT⟩ := flat_built hS hlen hu hu'
    rw [hc'] at hc
    cases hc
    subst hh
    exact ⟨rfl, Nat.le_succ_of_le (log2_bounds hu hu').2, fun x hx => lt_height (hS.below x hx), T, flatOf_rep hne.nz, hne, hT⟩
  | level il hS hlen hu hu' hc hh =>
    obtain ⟨T, hc', hne, hT⟩ := level_built hS hlen hu (by omega)
    rw [hc'] at hc
    cases hc
    rw [levelOf_height] at hh
    subst hh
    have hd := level_depth hu hu'
    exact ⟨levelOf_height, hd, fun x hx => lt_height (hS.below x hx), T, levelOf_rep (by omega) hne.nz, hne, hT⟩

theorem RunsTrie.holds {pad h : Nat} {S : List Nat} {n : Nav} (H : RunsTrie pad h S n) : HoldsR (h - 1) S n := by
  cases H with
  | plain H => exact H.holds.toR
  | flat hS hlen hu hu' hc he hh hpart =>
    obtain ⟨T, hc', hne, hT⟩ := flat_built hS hlen hu hu'
    rw [hc'] at hc
    cases hc
    obtain ⟨t'', he', hh', -, -, hrep, -⟩ := flatOf_encode_cases (pad := pad) (hw := 0) (runs := false) hne
    rw [he'] at he
    cases he
    rw [hh'] at hh
    subst hh
    exact ⟨hh', Nat.le_succ_of_le (log2_bounds hu hu').2, fun x hx => lt_height (hS.below x hx), _,
      hrep (hpart.imp (leaves_of_part hT hS.below (log2_bounds hu hu').1) id), hT.prune hne⟩
  | level il hS hlen hu hu' hc he hh =>
    obtain ⟨T, hc', hne, hT⟩ := level_built hS hlen hu (by omega)
    rw [hc'] at hc
    cases hc
    have hd := level_depth hu hu'
    obtain ⟨k, _, _, he'⟩ := levelOf_encode (pad := pad) (il := il) (hw := 0) (runs := false) (by omega) hne
    rw [he'] at he
    cases he
    rw [levelOf_height] at hh
    subst hh
    exact ⟨levelOf_height, hd, fun x hx => lt_height (hS.below x hx), _,
      levelOf_rep (by omega) hne.prune_nz, hT.prune hne⟩

theorem FastPlain.holds {lg pad h : Nat} (hlg : 3 ≤ lg ∧ lg ≤ 6) {S : List Nat} {n : FNav} (H : FastPlain lg pad h S n) :
    FHoldsP lg (h - 1) S n := by
  cases H with
  | @mk u junk t hS hlen hu hu' hc hh =>
    obtain ⟨h0, h1, h2⟩ := fast_depth hlg hu hu'
    obtain ⟨T, hc', hne, hT⟩ := fast_built hlg hS hlen hu hu' junk
    rw [hc'] at hc
    cases hc
    subst hh
    exact ⟨rfl, h2, fun x hx => h1 ▸ lt_height (hS.below x hx), T, fastOf_rep hne.nz, hne, hT⟩

theorem FastRuns.holds {lg pad h : Nat} (hlg : 3 ≤ lg ∧ lg ≤ 6) {S : List Nat} {n : FNav} (H : FastRuns lg pad h S n) :
    FHoldsR lg (h - 1) S n := by
  cases H with
  | plain H => exact (H.holds hlg).toR
  | @runs u junk t t' hS hlen hu hu' hc he hh =>
    obtain ⟨h0, h1, h2⟩ := fast_depth hlg hu hu'
    obtain ⟨T, hc', hne, hT⟩ := fast_built hlg hS hlen hu hu' junk
    rw [hc'] at hc
    cases hc
    obtain ⟨k, he'⟩ := fastOf_encode (pad := pad) (hw := junk.heightWithRuns) (runs := false) (empty := junk.emptyTrie) hne
    rw [he'] at he
    cases he
    subst hh
    exact ⟨rfl, h2, fun x hx => h1 ▸ lt_height (hS.below x hx), _, fastOf_rep hne.prune_nz, hT.prune hne⟩

/-! ## Concrete tries, used in the examples -/

namespace Ex

def sF : List Nat := [0, 1, 2, 3, 5, 8, 14]
def sL : List Nat := [1, 2, 3, 5, 6, 14]
def sR : List Nat := [0, 1, 2, 3, 4, 5, 6, 7, 14]

def flat : FlatTrie :=
  { height := 4, heightWithRuns := 0, runsEncoded := false, emptyTrie := false,
    bTrie := [true, true, true, true, true, true, true, true, true, false, true, false, false, true],
    lastLevel := [true, true, true, true, false, true, true, false, true, false] }

def flatR : FlatTrie :=
  { height := 4, heightWithRuns := 4, runsEncoded := true, emptyTrie := false,
    bTrie := [true, true, true, true, true, true, false, false, true, false, true, false, false, true],
    lastLevel := [false, true, true, false, true, false] }

def level : LevelTrie :=
  { heightWithRuns := 0, runsEncoded := false, emptyTrie := false,
    bTrie := [[true, true], [true, true, false, true], [true, true, true, true, false, true],
      [false, true, true, true, false, true, true, false, true, false]] }

def levelR : LevelTrie :=
  { heightWithRuns := 4, runsEncoded := true, emptyTrie := false,
    bTrie := [[true, true], [false, false, false, true], [false, true], [true, false]] }

theorem flat_plain : PlainTrie 0 4 sF (flat.nav 0) :=
  .flat (u := 16) (by decide +kernel) (by decide +kernel) (by decide) (by decide) (by decide +kernel) rfl

theorem level_plain : PlainTrie 0 4 sL (level.nav true 0) :=
  .level (u := 16) true (by decide +kernel) (by decide +kernel) (by decide) (by decide) (by decide +kernel) rfl

theorem flat_runs : RunsTrie 0 4 sF (flatR.nav 0) :=
  .flat (u := 16) (t := flat) (by decide +kernel) (by decide +kernel) (by decide) (by decide) (by decide +kernel) (by decide +kernel) rfl
    (.inl ⟨5, by decide, 4, by decide⟩)

def sB4 : List Nat := [0, 1, 2, 3, 12, 13, 14, 15]

/-- A run-encoded flat trie without any last-level node left; four bits have to be readable after `bTrie`. -/
def flatC : FlatTrie :=
  { height := 4, heightWithRuns := 3, runsEncoded := true, emptyTrie := false, bTrie := [true, true, true, false, false, true],
    lastLevel := [false, false, false, false] }

theorem flatC_runs : RunsTrie 64 4 sB4 (flatC.nav 64) :=
  .flat (u := 16) (t := ⟨4, 0, false, false, [true, true, true, false, false, true, true, true, true, true],
      [true, true, true, true, true, true, true, true]⟩)
    (by decide +kernel) (by decide +kernel) (by decide) (by decide) (by decide +kernel) (by decide +kernel) rfl
    (.inr (by decide))

def level2 : LevelTrie :=
  { heightWithRuns := 0, runsEncoded := false, emptyTrie := false,
    bTrie := [[true, true], [true, true, false, true], [true, true, true, true, false, true],
      [true, true, true, true, true, true, true, true, true, false]] }

theorem level_runs : RunsTrie 0 4 sR (levelR.nav false 0) :=
  .level (u := 16) (t := level2) false (by decide +kernel) (by decide +kernel) (by decide) (by decide) (by decide +kernel)
    (by decide +kernel) rfl

def junk : FastJunk := ⟨9, 9, 9, true, true⟩
def sW : List Nat := List.range 16 ++ [17, 31]
def sV : List Nat := [4, 17, 31]

def fast : FastTrie :=
  { height := 3, heightWithRuns := 9, heightU := 5, runsEncoded := false, emptyTrie := true,
    bTrie := [true, true, true, false, true, true], lastLevel := [16, 2, 128] }

def fast2 : FastTrie :=
  { height := 3, heightWithRuns := 9, heightU := 5, runsEncoded := false, emptyTrie := true,
    bTrie := [true, true, true, true, true, true], lastLevel := [255, 255, 2, 128] }

def fastR : FastTrie :=
  { height := 3, heightWithRuns := 2, heightU := 5, runsEncoded := true, emptyTrie := true,
    bTrie := [true, true, false, false, true, true], lastLevel := [2, 128] }

theorem fast_plain : FastPlain 3 0 3 sV (fast.nav 0) :=
  .mk (u := 32) (junk := junk) (by decide +kernel) (by decide +kernel) (by decide) (by decide) (by decide +kernel) rfl

theorem fast2_plain : FastPlain 3 0 3 sW (fast2.nav 0) :=
  .mk (u := 32) (junk := junk) (by decide +kernel) (by decide +kernel) (by decide) (by decide) (by decide +kernel) rfl

theorem fast_runs : FastRuns 3 0 3 sW (fastR.nav 0) :=
  .runs (u := 32) (junk := junk) (t := fast2) (by decide +kernel) (by decide +kernel) (by decide) (by decide) (by decide +kernel)
    (by decide +kernel) rfl

end Ex

end CBT
