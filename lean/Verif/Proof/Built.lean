import Verif.Spec
import Verif.Proof.Prune

/-!
# What the constructors and `encodeRuns` give, as tries of an abstract tree
-/

namespace CBT

open Spec

/-- The members below `2^k` are exactly the elements of `S`. -/
def Holds (k : Nat) (P : Nat → Bool) (S : List Nat) : Prop := ∀ x < 2 ^ k, P x = decide (x ∈ S)

theorem Holds.enum {k : Nat} {P : Nat → Bool} {S : List Nat} (h : Holds k P S) (hs : S.Pairwise (· < ·)) (hb : ∀ x ∈ S, x < 2 ^ k) :
    enum k P 0 = S := by
  apply enum_eq_of_sorted hs
  intro y
  constructor
  · intro hy; exact ⟨y, hb y hy, by rw [h y (hb y hy)]; simpa using hy, by simp⟩
  · rintro ⟨x, hx, hP, rfl⟩
    rw [h x hx] at hP
    simpa using hP

/-! ## Flat -/

/-- A flat trie holding the bits of `T`. -/
def flatOf (d : Nat) (T : Tr d) (hw : Nat) (runs : Bool) : FlatTrie :=
  { height := d + 1, heightWithRuns := hw, runsEncoded := runs, emptyTrie := false, bTrie := flatBits d [T],
    lastLevel := (leaves d [T]).flatMap leafBits }

theorem flatOf_rep {d hw pad : Nat} {runs : Bool} {T : Tr d} (h : NZ 1 d T) :
    Rep ((flatOf d T hw runs).nav pad) (leafF ((flatOf d T hw runs).nav pad)) d 0 T 0 := flat_plain_rep rfl rfl rfl h

theorem log2_bounds {u : Nat} (hu : 3 ≤ u) (hu' : u ≤ 2 ^ 62) : 1 ≤ Nat.log2 (u - 1) ∧ Nat.log2 (u - 1) ≤ 61 := by
  have h0 : u - 1 ≠ 0 := by omega
  have h1 : 1 ≤ Nat.log2 (u - 1) := (Nat.le_log2 h0).2 (by omega)
  have h2 : Nat.log2 (u - 1) < 62 := (Nat.log2_lt h0).2 (by omega)
  omega

theorem level_bounds {u : Nat} (hu : 3 ≤ u) (hu' : u ≤ 2 ^ 63) : 1 ≤ Nat.log2 (u - 1) ∧ Nat.log2 (u - 1) ≤ 62 := by
  have h0 : u - 1 ≠ 0 := by omega
  have h1 : 1 ≤ Nat.log2 (u - 1) := (Nat.le_log2 h0).2 (by omega)
  have h2 : Nat.log2 (u - 1) < 63 := (Nat.log2_lt h0).2 (by omega)
  omega

theorem flat_built {S : List Nat} {u : Nat} (hS : ValidSet S u) (hlen : S.length < 2 ^ 32) (hu : 3 ≤ u) (hu' : u ≤ 2 ^ 62) :
    ∃ T : Tr (Nat.log2 (u - 1)), flatCtor S u = .ok (flatOf _ T 0 false) ∧ NE 1 _ T ∧
      Holds (Nat.log2 (u - 1) + 1) (has 1 _ T) S := by
  obtain ⟨h1, h2⟩ := log2_bounds hu hu'
  have hb : ∀ x ∈ S, x < 2 ^ (Nat.log2 (u - 1) + 1) := fun x hx => lt_height (hS.below x hx)
  exact ⟨_, flatCtor_ok hS.ne hlen (by omega) rfl h1 h2, flatTree_NE hS.ne hS.increasing hb, flatTree_has hS.increasing hb⟩

theorem flatOf_encode {d pad : Nat} {T : Tr d} {hw : Nat} {runs : Bool} (hne : NE 1 d T)
    (hl : leaves d [prune 1 d T] ≠ []) :
    (flatOf d T hw runs).encodeRuns pad = .ok (flatOf d (prune 1 d T) (d + 1) true) := by
  rcases flat_encodeRuns_ok (pad := pad) rfl (flatOf_rep (hw := hw) (runs := runs) hne.nz) hne with ⟨_, he⟩ | ⟨hl', _⟩
  · rw [he]; rfl
  · exact (hl hl').elim

/-- Some populated aligned block of four is not full. -/
theorem leaves_of_part {u : Nat} {T : Tr (Nat.log2 (u - 1))} {S : List Nat} (hT : Holds (Nat.log2 (u - 1) + 1) (has 1 _ T) S)
    (hb : ∀ x ∈ S, x < u) (hd : 1 ≤ Nat.log2 (u - 1)) (hpart : ∃ x ∈ S, ∃ y, y / 4 = x / 4 ∧ y ∉ S) :
    leaves _ [prune 1 _ T] ≠ [] := by
  intro hl
  obtain ⟨x, hx, y, hy, hn⟩ := hpart
  have hbx : x < 2 ^ (Nat.log2 (u - 1) + 1) := lt_height (hb x hx)
  have hy' := sameBlock_lt (k := 2) hy (by omega : 2 ≤ Nat.log2 (u - 1) + 1) hbx
  have := prune_no_leaves _ T hl x y hbx hy (by rw [hT x hbx]; simpa using hx)
  rw [hT y hy'] at this
  exact hn (by simpa using this)

theorem Holds.prune {b d : Nat} {T : Tr d} {S : List Nat} (hne : NE b d T) (h : Holds (d + b) (has b d T) S) :
    Holds (d + b) (hasR b d (prune b d T)) S := fun x hx => by rw [hasR_prune hne x hx]; exact h x hx

theorem flatOf_decode {d hw pad : Nat} {T : Tr d} {S : List Nat} (hd : d ≤ 62) (hnz : NZ 1 d T)
    (hT : Holds (d + 1) (hasR 1 d T) S) (hs : S.Pairwise (· < ·)) (hb : ∀ x ∈ S, x < 2 ^ (d + 1)) (out : List Nat) :
    (flatOf d T hw true).decode pad out = .ok (out ++ S) := by
  rw [FlatTrie.decode]
  simp only [flatOf, Bool.false_eq_true, if_false, if_true]
  rw [← flatOf, runsRecDecode_rep (by simp [FlatTrie.nav, flatOf]; omega) _ _ 0 _ 0 0 out (flatOf_rep hnz)
    (by simp [FlatTrie.nav, flatOf]) (dvd_zero _) (Stops.refl _ _), hT.enum hs hb]

/-! ## Level-wise -/

/-- A level-wise trie holding the bits of `T`. -/
def levelOf (d : Nat) (T : Tr d) (hw : Nat) (runs : Bool) : LevelTrie :=
  { heightWithRuns := hw, runsEncoded := runs, emptyTrie := false,
    bTrie := nodeLevels d [T] ++ [(leaves d [T]).flatMap leafBits] }

theorem levelOf_height {d hw : Nat} {runs : Bool} {T : Tr d} : (levelOf d T hw runs).height = d + 1 := by
  simp [levelOf, LevelTrie.height, length_nodeLevels]

theorem levelOf_rep {d hw pad : Nat} {runs il : Bool} {T : Tr d} (hd : d ≤ 62) (h : NZ 1 d T) :
    Rep ((levelOf d T hw runs).nav il pad) (leafF ((levelOf d T hw runs).nav il pad)) d 0 T 0 := level_rep rfl hd h

theorem level_built {S : List Nat} {u : Nat} (hS : ValidSet S u) (hlen : S.length < 2 ^ 64) (hu : 2 ≤ u) (hu' : u ≤ 2 ^ 63) :
    ∃ T : Tr (Nat.log2 (u - 1)), levelCtor S u = .ok (levelOf _ T 0 false) ∧ NE 1 _ T ∧
      Holds (Nat.log2 (u - 1) + 1) (has 1 _ T) S := by
  have h0 : u - 1 ≠ 0 := by omega
  have h2 : Nat.log2 (u - 1) < 63 := (Nat.log2_lt h0).2 (by omega)
  have hb : ∀ x ∈ S, x < 2 ^ (Nat.log2 (u - 1) + 1) := fun x hx => lt_height (hS.below x hx)
  exact ⟨_, levelCtor_ok hS.ne hlen hu rfl (by omega), flatTree_NE hS.ne hS.increasing hb, flatTree_has hS.increasing hb⟩

theorem levelOf_encode {d pad : Nat} {il : Bool} {T : Tr d} {hw : Nat} {runs : Bool} (hd : d ≤ 62) (hne : NE 1 d T) :
    ∃ k, k ≤ d ∧ Stops k d (prune 1 d T) ∧
      (levelOf d T hw runs).encodeRuns il pad = .ok (levelOf d (prune 1 d T) (k + 1) true) :=
  level_encodeRuns_ok levelOf_height (levelOf_rep hd hne.nz) hne

theorem levelOf_decode {d k pad : Nat} {il : Bool} {T : Tr d} {S : List Nat} (hd : d ≤ 62) (hnz : NZ 1 d T) (hst : Stops k d T)
    (hT : Holds (d + 1) (hasR 1 d T) S) (hs : S.Pairwise (· < ·)) (hb : ∀ x ∈ S, x < 2 ^ (d + 1)) (out : List Nat) :
    (levelOf d T (k + 1) true).decode il pad out = .ok (out ++ S) := by
  rw [LevelTrie.decode]
  simp only [levelOf, Bool.false_eq_true, if_false, if_true]
  rw [← levelOf, runsRecDecode_rep (by simp only [LevelTrie.nav, levelOf_height]; omega) _ _ 0 _ 0 0 out (levelOf_rep hd hnz)
    (by simp only [LevelTrie.nav, levelOf_height]; omega) (dvd_zero _) hst, hT.enum hs hb]

/-! ## Fast -/

/-- A fast trie holding the bits and words of `T`. -/
def fastOf (lg d : Nat) (T : Tr d) (hw : Nat) (runs empty : Bool) : FastTrie :=
  { height := d + 1, heightWithRuns := hw, heightU := d + lg, runsEncoded := runs, emptyTrie := empty,
    bTrie := flatBits d [T], lastLevel := leaves d [T] }

theorem fastOf_rep {lg d hw pad : Nat} {runs empty : Bool} {T : Tr d} (h : NZ lg d T) :
    Rep ((fastOf lg d T hw runs empty).nav pad).toNav (leafW lg ((fastOf lg d T hw runs empty).nav pad)) d 0 T 0 :=
  fast_rep rfl rfl rfl h

/-- The number of node levels of a fast trie. -/
theorem fast_depth {lg u : Nat} (hlg : 3 ≤ lg ∧ lg ≤ 6) (hu : 2 ^ (lg - 1) < u) (hu' : u ≤ 2 ^ 62) :
    2 ≤ u ∧ Nat.log2 (u - 1) + 1 = (Nat.log2 (u - 1) + 1 - lg) + lg ∧ Nat.log2 (u - 1) + 1 - lg + lg ≤ 62 := by
  have hpl : 2 ^ 2 ≤ 2 ^ (lg - 1) := Nat.pow_le_pow_right (by omega) (by omega)
  have h0 : u - 1 ≠ 0 := by omega
  have h1 : lg - 1 ≤ Nat.log2 (u - 1) := (Nat.le_log2 h0).2 (by omega)
  have h2 : Nat.log2 (u - 1) < 62 := (Nat.log2_lt h0).2 (by omega)
  omega

theorem fast_built {lg : Nat} (hlg : 3 ≤ lg ∧ lg ≤ 6) {S : List Nat} {u : Nat} (hS : ValidSet S u)
    (hlen : S.length < 2 ^ 32) (hu : 2 ^ (lg - 1) < u) (hu' : u ≤ 2 ^ 62) (junk : FastJunk) :
    ∃ T : Tr (Nat.log2 (u - 1) + 1 - lg),
      fastCtor lg junk S u = .ok (fastOf lg _ T junk.heightWithRuns false junk.emptyTrie) ∧ NE lg _ T ∧
      Holds (Nat.log2 (u - 1) + 1 - lg + lg) (has lg _ T) S := by
  obtain ⟨h0, h1, h2⟩ := fast_depth hlg hu hu'
  have hb : ∀ x ∈ S, x < 2 ^ (Nat.log2 (u - 1) + 1 - lg + lg) := fun x hx => h1 ▸ lt_height (hS.below x hx)
  exact ⟨_, fastCtor_ok hS.ne hlen h0 h1 h2 (by omega), fastTree_NE hS.ne hS.increasing hb, fastTree_has hS.increasing hb⟩

theorem fastOf_encode {lg d pad : Nat} {T : Tr d} {hw : Nat} {runs empty : Bool} (hne : NE lg d T) :
    ∃ k, (fastOf lg d T hw runs empty).encodeRuns lg pad = .ok (fastOf lg d (prune lg d T) k true empty) :=
  fast_encodeRuns_ok rfl (fastOf_rep hne.nz) hne

theorem fastOf_decode {lg d hw pad : Nat} {T : Tr d} {S : List Nat} (hlg : lg ≤ 6) (hd : d + lg < 64) (hnz : NZ lg d T)
    (hT : Holds (d + lg) (hasR lg d T) S) (hs : S.Pairwise (· < ·)) (hb : ∀ x ∈ S, x < 2 ^ (d + lg)) (out : List Nat) :
    (fastOf lg d T hw true false).decode lg pad out = .ok (out ++ S) := by
  rw [FastTrie.decode]
  simp only [fastOf, Bool.false_eq_true, if_false, if_true, Nat.add_eq_zero_iff, one_ne_zero, and_false, Nat.add_sub_cancel]
  rw [← fastOf, fastRunsRecDecode_rep hlg hd _ 0 _ 0 0 out (fastOf_rep hnz) (by omega) (dvd_zero _), hT.enum hs hb]

/-- Nothing is pruned when no aligned block of `2^(b+1)` numbers is full. -/
theorem prune_sparse {b d : Nat} {T : Tr d} {S : List Nat} (hd : 1 ≤ d) (hT : Holds (d + b) (has b d T) S)
    (hsp : ∀ x ∈ S, ∃ y, y / 2 ^ (b + 1) = x / 2 ^ (b + 1) ∧ y ∉ S) : prune b d T = T := by
  refine prune_id _ _ fun x hx h => ?_
  rw [hT x hx] at h
  obtain ⟨y, hy, hn⟩ := hsp x (by simpa using h)
  refine ⟨y, hy, ?_⟩
  rw [hT y (sameBlock_lt hy (by omega) hx)]
  simpa using hn

end CBT
