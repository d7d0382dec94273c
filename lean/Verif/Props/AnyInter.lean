import Verif.Proof.AnyInterErr

/-!
# C76, C77: `Intersect` on tries in any state
-/

namespace CBT

/-! ## C76: interleavings -/

/-- C76. Whatever the tries answer, the outcome of `Intersect` does not depend on the interleavings of the threads: neither the list returned
nor whether the call is undefined. -/
theorem C76_schedule_any (Ts : List Nav) (runs par : Bool) (hw : Nat) (s1 s2 s1' s2' : List Nat) :
    intersect Ts runs par ⟨hw, s1, s2⟩ = intersect Ts runs par ⟨hw, s1', s2'⟩ := by
  cases Ts with
  | nil => rfl
  | cons T Ts =>
    rw [intersect, intersect]
    split
    · rfl
    · exact body_sched ..

/-- C76, for fast tries. -/
theorem C76_fast_schedule_any (lg : Nat) (Ts : List FNav) (runs par : Bool) (hw : Nat) (s1 s2 s1' s2' : List Nat) :
    fastIntersect lg Ts runs par ⟨hw, s1, s2⟩ = fastIntersect lg Ts runs par ⟨hw, s1', s2'⟩ := by
  cases Ts with
  | nil => rfl
  | cons T Ts =>
    rw [fastIntersect, fastIntersect]
    split
    · rfl
    split
    · rfl
    · exact body_sched ..

/-! ## C77: sequential and parallel plain calls -/

/-- The two calls return the same lists. -/
theorem body_any_le {Ts : List Nav} {c : Cfg} (hB : PlainBase Ts c) {height : Nat} {env : Env} (hw : env.hw ≠ 0)
    (hw2 : env.hw < 2 ^ 16) (h2 : 2 ≤ height) (hh : height < 2 ^ 63)
    (hstop : c.stop = height ∧ c.skipLast = true ∨ c.stop + 1 = height ∧ c.skipLast = false) (L : List Nat) :
    intersectBody Ts c height false true env = .ok L ↔ intersectBody Ts c height false false env = .ok L := by
  by_cases hlen : Ts.length ≤ 16
  · by_cases hcut : Nat.log2 env.hw + 2 ≤ height
    · exact body_any hB (m := c.stop - (Nat.log2 env.hw + 1)) hlen hw hw2 hh hcut (by omega) (by
        rcases hstop with h | h
        · exact .inr (by omega)
        · exact .inl h.2) L
    · rw [body_fallback h2 hh (by omega)]
  · have := body_short (height := height) (Nat.lt_of_not_le hlen) hw (c := c) (by omega)
    exact ⟨fun h => (this true L h).elim, fun h => (this false L h).elim⟩

/-- The two calls have the same outcome. -/
theorem body_any_eq_le {Ts : List Nav} {c : Cfg} (hB : PlainBase Ts c) (hT : ∀ n ∈ Ts, OobNav n) (hc : GoodCfg c) {height : Nat} {env : Env}
    (hlen : Ts.length ≤ 16) (hw : env.hw ≠ 0) (hw2 : env.hw < 2 ^ 16) (h2 : 2 ≤ height) (hh : height < 2 ^ 63)
    (hstop : c.stop = height ∧ c.skipLast = true ∨ c.stop + 1 = height ∧ c.skipLast = false) :
    intersectBody Ts c height false true env = intersectBody Ts c height false false env := by
  by_cases hcut : Nat.log2 env.hw + 2 ≤ height
  · exact body_any_eq hB hT hc (m := c.stop - (Nat.log2 env.hw + 1)) hlen hw hw2 hh hcut (by omega) (by
      rcases hstop with h | h
      · exact .inr (by omega)
      · exact .inl h.2)
  · exact body_fallback h2 hh (by omega)

/-- C77. Whatever the tries answer, and however many there are: a parallel call with `runs = false` on tries of height at least 2 returns a
list iff the sequential call returns that list. -/
theorem C77_plain_any {Ts : List Nav} (hh : ∀ n ∈ Ts, 2 ≤ n.height ∧ n.height < 2 ^ 63) (env : Env) (hw : env.hw ≠ 0)
    (hw2 : env.hw < 2 ^ 16) (L : List Nat) : intersect Ts false true env = .ok L ↔ intersect Ts false false env = .ok L := by
  cases Ts with
  | nil => exact Iff.rfl
  | cons T Ts =>
    obtain ⟨h2, h63⟩ := hh T (by simp)
    rw [intersect, intersect]
    split
    · exact Iff.rfl
    · exact body_any_le (flat_plainBase _ _) hw hw2 h2 h63 (.inl ⟨rfl, rfl⟩) L

/-- C77, for fast tries. -/
theorem C77_fast_plain_any (lg : Nat) {Ts : List FNav} (hh : ∀ n ∈ Ts, 2 ≤ n.height ∧ n.height < 2 ^ 63) (env : Env) (hw : env.hw ≠ 0)
    (hw2 : env.hw < 2 ^ 16) (L : List Nat) : fastIntersect lg Ts false true env = .ok L ↔ fastIntersect lg Ts false false env = .ok L := by
  cases Ts with
  | nil => exact Iff.rfl
  | cons T Ts =>
    obtain ⟨h2, h63⟩ := hh T (by simp)
    rw [fastIntersect, fastIntersect]
    split
    · exact Iff.rfl
    rw [if_neg (by omega), if_neg (by omega)]
    exact body_any_le (fast_plainBase _ _ _) hw hw2 h2 h63 (.inr ⟨by show T.height - 1 + 1 = _; omega, rfl⟩) L

/-- A trie of the library with any contents. -/
inductive SomeTrie : Nav → Prop
  | flat (t : FlatTrie) (pad : Nat) : SomeTrie (t.nav pad)
  | level (t : LevelTrie) (il : Bool) (pad : Nat) : SomeTrie (t.nav il pad)

theorem SomeTrie.oob {n : Nav} (h : SomeTrie n) : OobNav n := by
  cases h with
  | flat t pad => exact t.oobNav pad
  | level t il pad => exact t.oobNav il pad

/-- C77, with the undefined calls: on at most 16 tries with any contents both calls have the same outcome. -/
theorem C77_outcome_any {Ts : List Nav} (hT : ∀ n ∈ Ts, SomeTrie n ∧ 2 ≤ n.height ∧ n.height ≤ 64) (hlen : Ts.length ≤ 16) (env : Env)
    (hw : env.hw ≠ 0) (hw2 : env.hw < 2 ^ 16) : intersect Ts false true env = intersect Ts false false env := by
  cases Ts with
  | nil => rfl
  | cons T Ts =>
    obtain ⟨-, h2, h64⟩ := hT T (by simp)
    rw [intersect, intersect]
    split
    · rfl
    · exact body_any_eq_le (flat_plainBase _ _) (fun n hn => (hT n hn).1.oob) (flat_goodCfg h64) hlen hw hw2 h2 (by omega) (.inl ⟨rfl, rfl⟩)

/-- C77, with the undefined calls, for fast tries of words of `2^lg` bits. -/
theorem C77_fast_outcome_any {lg : Nat} (hlg : lg ≤ 6) {Ts : List FNav}
    (hT : ∀ n ∈ Ts, (∃ (t : FastTrie) (pad : Nat), n = t.nav pad) ∧ 2 ≤ n.height ∧ n.height + lg ≤ 65) (hlen : Ts.length ≤ 16) (env : Env)
    (hw : env.hw ≠ 0) (hw2 : env.hw < 2 ^ 16) : fastIntersect lg Ts false true env = fastIntersect lg Ts false false env := by
  cases Ts with
  | nil => rfl
  | cons T Ts =>
    obtain ⟨-, h2, h64⟩ := hT T (by simp)
    rw [fastIntersect, fastIntersect]
    split
    · rfl
    rw [if_neg (by omega), if_neg (by omega)]
    refine body_any_eq_le (fast_plainBase _ _ _) ?_ (fast_goodCfg hlg ?_ h64) (by simpa using hlen) hw hw2 h2 (by omega)
      (.inr ⟨by show T.height - 1 + 1 = _; omega, rfl⟩)
    · intro n hn
      obtain ⟨n', hn', rfl⟩ := List.mem_map.1 hn
      obtain ⟨t, pad, rfl⟩ := (hT n' hn').1
      exact t.oobNav pad
    · intro n hn
      obtain ⟨t, pad, rfl⟩ := (hT n hn).1
      exact t.wordGood pad

namespace Ex

/-- Bits that no constructor writes: node 3 of level 2 is empty. -/
def levelBare : LevelTrie := ⟨3, false, false, [[true, true], [true, true, true, true], [true, true, true, false, false, true, false, false]]⟩

/-- The same bits with the end of level 2 torn off. -/
def levelTorn : LevelTrie := ⟨3, false, false, [[true, true], [true, true, true, true], [true, true, true, false, false, true]]⟩

/-- Words of 8 bits; the third child of level 1 has no word in `fastTorn`. -/
def fastBare : FastTrie := ⟨3, 3, 5, false, false, [true, true, true, false, true, true], [5, 0, 255]⟩
def fastTorn : FastTrie := ⟨3, 3, 5, false, false, [true, true, true, false, true, true], [5, 0]⟩

end Ex

/-- Tries that no constructor makes, with two threads: one pair returns a list, another reads outside an array, in all interleavings. -/
example : (∀ n ∈ [Ex.levelBare.nav false 0, Ex.levelTorn.nav false 0], SomeTrie n ∧ 2 ≤ n.height ∧ n.height ≤ 64) ∧
    intersect [Ex.levelBare.nav false 0, Ex.levelBare.nav false 0] false true ⟨2, [1, 0, 1], [1]⟩ = .ok [0, 1, 2, 5] ∧
    intersect [Ex.levelBare.nav false 0, Ex.levelTorn.nav false 0] false true ⟨2, [1, 0, 1], [0]⟩ = .error .oob ∧
    intersect [Ex.levelBare.nav false 0, Ex.levelTorn.nav false 0] false false ⟨2, [], []⟩ = .error .oob := by
  refine ⟨?_, by decide +kernel, by decide +kernel, by decide +kernel⟩
  intro n hn
  have : n = Ex.levelBare.nav false 0 ∨ n = Ex.levelTorn.nav false 0 := by simpa using hn
  rcases this with rfl | rfl
  · exact ⟨.level .., by decide, by decide⟩
  · exact ⟨.level .., by decide, by decide⟩

/-- The same for fast tries. -/
example : (∀ n ∈ [Ex.fastBare.nav 0, Ex.fastTorn.nav 0], (∃ (t : FastTrie) (pad : Nat), n = t.nav pad) ∧ 2 ≤ n.height ∧ n.height + 3 ≤ 65) ∧
    fastIntersect 3 [Ex.fastBare.nav 0, Ex.fastBare.nav 0] false true ⟨2, [1, 0, 1], [1]⟩ =
      .ok [0, 2, 24, 25, 26, 27, 28, 29, 30, 31] ∧
    fastIntersect 3 [Ex.fastBare.nav 0, Ex.fastTorn.nav 0] false true ⟨2, [1, 0, 1], [0]⟩ = .error .oob ∧
    fastIntersect 3 [Ex.fastBare.nav 0, Ex.fastTorn.nav 0] false false ⟨2, [], []⟩ = .error .oob := by
  refine ⟨?_, by decide +kernel, by decide +kernel, by decide +kernel⟩
  intro n hn
  have : n = Ex.fastBare.nav 0 ∨ n = Ex.fastTorn.nav 0 := by simpa using hn
  rcases this with rfl | rfl
  · exact ⟨⟨_, _, rfl⟩, by decide, by decide⟩
  · exact ⟨⟨_, _, rfl⟩, by decide, by decide⟩

/-- For tries of height 1 the parallel call is different: this is C32. -/
example : intersect [(⟨1, false, false, [[true, true]]⟩ : LevelTrie).nav false 0] false false ⟨4, [], []⟩ = .ok [0, 1] ∧
    intersect [(⟨1, false, false, [[true, true]]⟩ : LevelTrie).nav false 0] false true ⟨4, [], []⟩ = .error .oob := by
  constructor <;> decide +kernel

end CBT
