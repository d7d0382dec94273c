import Verif.SpecVector
import Verif.Proof.Vector
import Verif.Props.Decode
import Verif.Props.Intersect

/-!
# C73: vectors in any order, with repetitions

The constructors take a vector and do not check that it is increasing (include/flatBinTrie.hpp:27-118, include/binTrie.hpp:27-93,
include/fastBinaryTrie.hpp:31-140). Whatever the vector, they make the trie of a valid set, `Spec.seen`; the theorems about
tries of valid sets apply to it.
-/

namespace CBT

open Spec

theorem log2_two_pow_pred (h : Nat) : Nat.log2 (2 ^ (h + 1) - 1) = h := by
  have hp : 2 ^ (h + 1) = 2 * 2 ^ h := by rw [Nat.pow_succ]; omega
  have h0 : 2 ^ (h + 1) - 1 ≠ 0 := by have := Nat.two_pow_pos h; omega
  have h1 : h ≤ Nat.log2 (2 ^ (h + 1) - 1) := (Nat.le_log2 h0).2 (by have := Nat.two_pow_pos h; omega)
  have h2 : Nat.log2 (2 ^ (h + 1) - 1) < h + 1 := (Nat.log2_lt h0).2 (by have := Nat.two_pow_pos (h + 1); omega)
  omega

/-- C73. Flat tries: any non-empty vector gives the trie of what is seen of it, a valid set with at most as many elements. -/
theorem C73_flat_partial {v : List Nat} {u : Nat} (hv : v ≠ []) (hlen : v.length < 2 ^ 32) (hu : 3 ≤ u) (hu' : u ≤ 2 ^ 62) :
    let h := Nat.log2 (u - 1) + 1
    ValidSet (seen 0 h v) (2 ^ h) ∧ (seen 0 h v).length ≤ v.length ∧
      ∃ t, flatCtor v u = .ok t ∧ flatCtor (seen 0 h v) (2 ^ h) = .ok t ∧
        ∀ pad out, t.decode pad out = .ok (out ++ seen 0 h v) := by
  obtain ⟨h1, h2⟩ := log2_bounds hu hu'
  have hV : ValidSet (seen 0 (Nat.log2 (u - 1) + 1) v) (2 ^ (Nat.log2 (u - 1) + 1)) := seen_valid hv
  have hl := length_seen_le (w := 0) (Nat.log2 (u - 1) + 1) v
  have hp : 2 ^ 2 ≤ 2 ^ (Nat.log2 (u - 1) + 1) := Nat.pow_le_pow_right (by omega) (by omega)
  have hp' : 2 ^ (Nat.log2 (u - 1) + 1) ≤ 2 ^ 62 := Nat.pow_le_pow_right (by omega) (by omega)
  have e1 := flatCtor_ok hv hlen (by omega) rfl h1 h2
  have e2 := flatCtor_ok hV.ne (by omega) (by omega) (log2_two_pow_pred _) h1 h2
  rw [flatTree_seen] at e2
  refine ⟨hV, hl, _, e1, e2, fun pad out => ?_⟩
  obtain ⟨t, ht, hd⟩ := C01_flat_build_decode hV (by omega) (by omega) hp' pad out
  rw [e2, Except.ok.injEq] at ht
  rw [ht, hd]

example : seen 0 4 [5, 1, 3, 14, 2, 2, 17] = [5, 7, 14, 15] ∧ (3 ≤ 16 ∧ 16 ≤ 2 ^ 62) := by decide

/-- C73. Level-wise tries. -/
theorem C73_level_partial {v : List Nat} {u : Nat} (hv : v ≠ []) (hlen : v.length < 2 ^ 64) (hu : 2 ≤ u) (hu' : u ≤ 2 ^ 63) :
    let h := Nat.log2 (u - 1) + 1
    ValidSet (seen 0 h v) (2 ^ h) ∧ (seen 0 h v).length ≤ v.length ∧
      ∃ t, levelCtor v u = .ok t ∧ levelCtor (seen 0 h v) (2 ^ h) = .ok t ∧
        ∀ il pad out, t.decode il pad out = .ok (out ++ seen 0 h v) := by
  have h0 : u - 1 ≠ 0 := by omega
  have h2 : Nat.log2 (u - 1) < 63 := (Nat.log2_lt h0).2 (by omega)
  have hV : ValidSet (seen 0 (Nat.log2 (u - 1) + 1) v) (2 ^ (Nat.log2 (u - 1) + 1)) := seen_valid hv
  have hl := length_seen_le (w := 0) (Nat.log2 (u - 1) + 1) v
  have hp : 2 ^ 1 ≤ 2 ^ (Nat.log2 (u - 1) + 1) := Nat.pow_le_pow_right (by omega) (by omega)
  have hp' : 2 ^ (Nat.log2 (u - 1) + 1) ≤ 2 ^ 63 := Nat.pow_le_pow_right (by omega) (by omega)
  have e1 := levelCtor_ok (u := u) hv hlen (by omega) rfl (by omega)
  have e2 := levelCtor_ok hV.ne (by omega) (by omega) (log2_two_pow_pred _) (by omega)
  rw [flatTree_seen] at e2
  refine ⟨hV, hl, _, e1, e2, fun il pad out => ?_⟩
  obtain ⟨t, ht, hd⟩ := C02_level_build_decode hV (by omega) (by omega) hp' il pad out
  rw [e2, Except.ok.injEq] at ht
  rw [ht, hd]

example : seen 0 1 [1, 0] = [1] ∧ seen 0 3 [6, 1, 9] = [6, 7] := by decide

/-- C73. Fast tries: within a word the order does not matter. -/
theorem C73_fast_partial {lg : Nat} (hlg : 3 ≤ lg ∧ lg ≤ 6) {v : List Nat} {u : Nat} (hv : v ≠ []) (hlen : v.length < 2 ^ 32)
    (hu : 2 ^ (lg - 1) < u) (hu' : u ≤ 2 ^ 62) (junk : FastJunk) :
    let h := Nat.log2 (u - 1) + 1
    ValidSet (seen lg (h - lg) v) (2 ^ h) ∧ (seen lg (h - lg) v).length ≤ v.length ∧
      ∃ t, fastCtor lg junk v u = .ok t ∧ fastCtor lg junk (seen lg (h - lg) v) (2 ^ h) = .ok t ∧
        ∀ pad out, t.decode lg pad out = .ok (out ++ seen lg (h - lg) v) := by
  obtain ⟨h0, h1, h2⟩ := fast_depth hlg hu hu'
  have hV : ValidSet (seen lg (Nat.log2 (u - 1) + 1 - lg) v) (2 ^ (Nat.log2 (u - 1) + 1 - lg + lg)) := seen_valid hv
  rw [← h1] at hV
  have hl := length_seen_le (w := lg) (Nat.log2 (u - 1) + 1 - lg) v
  have hp : 2 ^ lg ≤ 2 ^ (Nat.log2 (u - 1) + 1) := Nat.pow_le_pow_right (by omega) (by omega)
  have hpl : 2 ^ lg = 2 * 2 ^ (lg - 1) := by rw [← Nat.pow_succ']; congr 1; omega
  have hpp := Nat.two_pow_pos (lg - 1)
  have hp' : 2 ^ (Nat.log2 (u - 1) + 1) ≤ 2 ^ 62 := Nat.pow_le_pow_right (by omega) (by omega)
  have e1 := fastCtor_ok (lg := lg) (junk := junk) hv hlen h0 h1 h2 (by omega)
  have e2 := fastCtor_ok (lg := lg) (junk := junk) hV.ne (by omega) (by omega)
    ((congrArg (· + 1) (log2_two_pow_pred (Nat.log2 (u - 1)))).trans h1) h2 (by omega)
  rw [fastTree_seen] at e2
  refine ⟨hV, hl, _, e1, e2, fun pad out => ?_⟩
  obtain ⟨t, ht, hd⟩ := C03_fast_build_decode hlg hV (by omega) (by omega) hp' junk pad out
  rw [e2, Except.ok.injEq] at ht
  rw [ht, hd]

example : seen 3 1 [5, 1, 5, 14, 12, 2] = [1, 5, 10, 12, 14] := by decide

/-- C73. Flat tries: a vector in order, elements repeated or not, gives the trie of the set of its elements. -/
theorem C73_flat_repeated {v : List Nat} {u : Nat} (hv : v ≠ []) (hlen : v.length < 2 ^ 32) (hu : 3 ≤ u) (hu' : u ≤ 2 ^ 62)
    (hs : v.Pairwise (· ≤ ·)) (hb : ∀ x ∈ v, x < u) :
    ∃ S, ValidSet S u ∧ (∀ x, x ∈ S ↔ x ∈ v) ∧ flatCtor v u = flatCtor S u := by
  obtain ⟨h1, h2⟩ := log2_bounds hu hu'
  have hm := mem_seen_of_inOrder (w := 0) (d := Nat.log2 (u - 1) + 1) (v := v) (hs.imp fun h => by simpa using h)
    fun x hx => lt_height (hb x hx)
  have hl := length_seen_le (w := 0) (Nat.log2 (u - 1) + 1) v
  have hV : ValidSet (seen 0 (Nat.log2 (u - 1) + 1) v) (2 ^ (Nat.log2 (u - 1) + 1)) := seen_valid hv
  refine ⟨seen 0 (Nat.log2 (u - 1) + 1) v, ⟨hV.ne, hV.increasing, fun x hx => hb x ((hm x).1 hx)⟩, hm, ?_⟩
  rw [flatCtor_ok hv hlen (by omega) rfl h1 h2, flatCtor_ok hV.ne (by omega) (by omega) rfl h1 h2, flatTree_seen]

example : [1, 1, 3, 7, 7, 7, 9].Pairwise (· ≤ ·) ∧ ValidSet [1, 3, 7, 9] 10 := by decide

/-- C73. Level-wise tries: repetitions do no harm. -/
theorem C73_level_repeated {v : List Nat} {u : Nat} (hv : v ≠ []) (hlen : v.length < 2 ^ 64) (hu : 2 ≤ u) (hu' : u ≤ 2 ^ 63)
    (hs : v.Pairwise (· ≤ ·)) (hb : ∀ x ∈ v, x < u) :
    ∃ S, ValidSet S u ∧ (∀ x, x ∈ S ↔ x ∈ v) ∧ levelCtor v u = levelCtor S u := by
  have h0 : u - 1 ≠ 0 := by omega
  have h2 : Nat.log2 (u - 1) < 63 := (Nat.log2_lt h0).2 (by omega)
  have hm := mem_seen_of_inOrder (w := 0) (d := Nat.log2 (u - 1) + 1) (v := v) (hs.imp fun h => by simpa using h)
    fun x hx => lt_height (hb x hx)
  have hl := length_seen_le (w := 0) (Nat.log2 (u - 1) + 1) v
  have hV : ValidSet (seen 0 (Nat.log2 (u - 1) + 1) v) (2 ^ (Nat.log2 (u - 1) + 1)) := seen_valid hv
  refine ⟨seen 0 (Nat.log2 (u - 1) + 1) v, ⟨hV.ne, hV.increasing, fun x hx => hb x ((hm x).1 hx)⟩, hm, ?_⟩
  rw [levelCtor_ok hv hlen (by omega) rfl (by omega), levelCtor_ok hV.ne (by omega) (by omega) rfl (by omega), flatTree_seen]

example : [0, 0, 1].Pairwise (· ≤ ·) ∧ ValidSet [0, 1] 2 := by decide

/-- C73. Fast tries: a vector whose words come in order gives the trie of the set of its elements. -/
theorem C73_fast_repeated {lg : Nat} (hlg : 3 ≤ lg ∧ lg ≤ 6) {v : List Nat} {u : Nat} (hv : v ≠ []) (hlen : v.length < 2 ^ 32)
    (hu : 2 ^ (lg - 1) < u) (hu' : u ≤ 2 ^ 62) (junk : FastJunk) (hs : v.Pairwise fun x y => x / 2 ^ lg ≤ y / 2 ^ lg)
    (hb : ∀ x ∈ v, x < u) :
    ∃ S, ValidSet S u ∧ (∀ x, x ∈ S ↔ x ∈ v) ∧ fastCtor lg junk v u = fastCtor lg junk S u := by
  obtain ⟨h0, h1, h2⟩ := fast_depth hlg hu hu'
  have hm := mem_seen_of_inOrder (w := lg) (d := Nat.log2 (u - 1) + 1 - lg) (v := v) hs
    fun x hx => h1 ▸ lt_height (hb x hx)
  have hl := length_seen_le (w := lg) (Nat.log2 (u - 1) + 1 - lg) v
  have hV : ValidSet (seen lg (Nat.log2 (u - 1) + 1 - lg) v) (2 ^ (Nat.log2 (u - 1) + 1 - lg + lg)) := seen_valid hv
  refine ⟨seen lg (Nat.log2 (u - 1) + 1 - lg) v, ⟨hV.ne, hV.increasing, fun x hx => hb x ((hm x).1 hx)⟩, hm, ?_⟩
  rw [fastCtor_ok hv hlen h0 h1 h2 (by omega), fastCtor_ok hV.ne (by omega) h0 h1 h2 (by omega), fastTree_seen]

example : [5, 1, 5, 14, 12].Pairwise (fun x y => x / 2 ^ 3 ≤ y / 2 ^ 3) ∧ ValidSet [1, 5, 12, 14] 16 := by decide

/-- C73. Flat tries: of the vectors without repetitions, exactly the increasing ones with elements below the power of two are kept. -/
theorem C73_flat_iff {v : List Nat} {u : Nat} (hv : v ≠ []) (hnd : v.Nodup) (hlen : v.length < 2 ^ 32) (hu : 3 ≤ u)
    (hu' : u ≤ 2 ^ 62) (pad : Nat) :
    (∃ t R, flatCtor v u = .ok t ∧ t.decode pad [] = .ok R ∧ ∀ x, x ∈ R ↔ x ∈ v) ↔
      v.Pairwise (· < ·) ∧ ∀ x ∈ v, x < 2 ^ (Nat.log2 (u - 1) + 1) := by
  obtain ⟨-, -, t, ht, -, hd⟩ := C73_flat_partial hv hlen hu hu'
  have hi := mem_seen_iff (w := 0) (d := Nat.log2 (u - 1) + 1) hnd
  have ho : InOrder 0 v ↔ v.Pairwise (· < ·) := by
    simp only [InOrder, Nat.pow_zero, Nat.div_one]
    constructor
    · intro h
      exact (h.and hnd).imp fun h => by omega
    · exact fun h => h.imp fun h => by omega
  rw [← ho, ← hi, ht]
  constructor
  · rintro ⟨t', R, h1, h2, h3⟩
    obtain rfl := Except.ok.inj h1
    rw [hd] at h2
    obtain rfl := Except.ok.inj h2
    simpa using h3
  · intro h
    exact ⟨t, _, rfl, hd pad [], by simpa using h⟩

example : [2, 1].Nodup ∧ ¬ [2, 1].Pairwise (· < ·) ∧ [1, 2].Pairwise (· < ·) := by decide

/-- C73. Level-wise tries: the same. -/
theorem C73_level_iff {v : List Nat} {u : Nat} (hv : v ≠ []) (hnd : v.Nodup) (hlen : v.length < 2 ^ 64) (hu : 2 ≤ u)
    (hu' : u ≤ 2 ^ 63) (il : Bool) (pad : Nat) :
    (∃ t R, levelCtor v u = .ok t ∧ t.decode il pad [] = .ok R ∧ ∀ x, x ∈ R ↔ x ∈ v) ↔
      v.Pairwise (· < ·) ∧ ∀ x ∈ v, x < 2 ^ (Nat.log2 (u - 1) + 1) := by
  obtain ⟨-, -, t, ht, -, hd⟩ := C73_level_partial hv hlen hu hu'
  have hi := mem_seen_iff (w := 0) (d := Nat.log2 (u - 1) + 1) hnd
  have ho : InOrder 0 v ↔ v.Pairwise (· < ·) := by
    simp only [InOrder, Nat.pow_zero, Nat.div_one]
    constructor
    · intro h
      exact (h.and hnd).imp fun h => by omega
    · exact fun h => h.imp fun h => by omega
  rw [← ho, ← hi, ht]
  constructor
  · rintro ⟨t', R, h1, h2, h3⟩
    obtain rfl := Except.ok.inj h1
    rw [hd] at h2
    obtain rfl := Except.ok.inj h2
    simpa using h3
  · intro h
    exact ⟨t, _, rfl, hd il pad [], by simpa using h⟩

example : [1, 0].Nodup ∧ ¬ [1, 0].Pairwise (· < ·) := by decide

/-- C73. Fast tries: exactly those whose words come in order. -/
theorem C73_fast_iff {lg : Nat} (hlg : 3 ≤ lg ∧ lg ≤ 6) {v : List Nat} {u : Nat} (hv : v ≠ []) (hnd : v.Nodup)
    (hlen : v.length < 2 ^ 32) (hu : 2 ^ (lg - 1) < u) (hu' : u ≤ 2 ^ 62) (junk : FastJunk) (pad : Nat) :
    (∃ t R, fastCtor lg junk v u = .ok t ∧ t.decode lg pad [] = .ok R ∧ ∀ x, x ∈ R ↔ x ∈ v) ↔
      v.Pairwise (fun x y => x / 2 ^ lg ≤ y / 2 ^ lg) ∧ ∀ x ∈ v, x < 2 ^ (Nat.log2 (u - 1) + 1) := by
  obtain ⟨-, -, t, ht, -, hd⟩ := C73_fast_partial hlg hv hlen hu hu' junk
  have hi := mem_seen_iff (w := lg) (d := Nat.log2 (u - 1) + 1 - lg) hnd
  rw [← (fast_depth hlg hu hu').2.1] at hi
  rw [← InOrder, ← hi, ht]
  constructor
  · rintro ⟨t', R, h1, h2, h3⟩
    obtain rfl := Except.ok.inj h1
    rw [hd] at h2
    obtain rfl := Except.ok.inj h2
    simpa using h3
  · intro h
    exact ⟨t, _, rfl, hd pad [], by simpa using h⟩

example : [5, 1].Nodup ∧ [5, 1].Pairwise (fun x y => x / 2 ^ 3 ≤ y / 2 ^ 3) ∧
    ¬ [8, 1].Pairwise (fun x y => x / 2 ^ 3 ≤ y / 2 ^ 3) := by decide

/-- A flat or level-wise trie built from any non-empty vector. -/
inductive VectorTrie (pad h : Nat) (v : List Nat) : Nav → Prop
  | flat {u : Nat} {t : FlatTrie} : v ≠ [] → v.length < 2 ^ 32 → 3 ≤ u → u ≤ 2 ^ 62 → flatCtor v u = .ok t → t.height = h →
    VectorTrie pad h v (t.nav pad)
  | level {u : Nat} {t : LevelTrie} (il : Bool) : v ≠ [] → v.length < 2 ^ 64 → 2 ≤ u → u ≤ 2 ^ 63 → levelCtor v u = .ok t →
    t.height = h → VectorTrie pad h v (t.nav il pad)

theorem VectorTrie.plain {pad h : Nat} {v : List Nat} {n : Nav} (H : VectorTrie pad h v n) : PlainTrie pad h (seen 0 h v) n := by
  cases H with
  | flat hv hlen hu hu' ht hh =>
    rename_i u t
    obtain ⟨h1, h2⟩ := log2_bounds hu hu'
    obtain ⟨hV, hl, t', ht', hs, -⟩ := C73_flat_partial hv hlen hu hu'
    have e := flatCtor_ok hv hlen (by omega) rfl h1 h2
    rw [ht] at ht' e
    obtain rfl := Except.ok.inj ht'
    have hh' : t.height = Nat.log2 (u - 1) + 1 := congrArg FlatTrie.height (Except.ok.inj e)
    rw [hh] at hh'
    subst hh'
    have hp : 2 ^ 2 ≤ 2 ^ (Nat.log2 (u - 1) + 1) := Nat.pow_le_pow_right (by omega) (by omega)
    exact .flat hV (by omega) (by omega) (Nat.pow_le_pow_right (by omega) (by omega)) hs hh
  | level il hv hlen hu hu' ht hh =>
    rename_i u t
    have h0 : u - 1 ≠ 0 := by omega
    have h2 : Nat.log2 (u - 1) < 63 := (Nat.log2_lt h0).2 (by omega)
    obtain ⟨hV, hl, t', ht', hs, -⟩ := C73_level_partial hv hlen hu (by omega)
    have e := levelCtor_ok hv hlen (by omega) rfl (by omega)
    rw [ht] at ht' e
    obtain rfl := Except.ok.inj ht'
    have hh' : t.height = Nat.log2 (u - 1) + 1 := by
      rw [Except.ok.inj e, LevelTrie.height]
      simp [length_nodeLevels]
    rw [hh] at hh'
    subst hh'
    have hp : 2 ^ 1 ≤ 2 ^ (Nat.log2 (u - 1) + 1) := Nat.pow_le_pow_right (by omega) (by omega)
    exact .level il hV (by omega) (by omega) (Nat.pow_le_pow_right (by omega) (by omega)) hs hh

/-- C73. Intersecting tries made from any non-empty vectors is free of undefined behaviour and gives the intersection of what was
seen of them. -/
theorem C73_intersect_partial {pad h : Nat} {vs : List (List Nat)} {Ts : List Nav} (hTs : List.Forall₂ (VectorTrie pad h) vs Ts)
    (hne : Ts ≠ []) (hlen : Ts.length ≤ 16) (env : Env) (hw : env.hw ≠ 0) :
    ∃ R, intersect Ts false false env = .ok R ∧ IsIntersection (vs.map (seen 0 h)) R :=
  C07_seq_intersect_plain (by
    rw [List.forall₂_map_left_iff]
    exact hTs.imp fun _ _ H => H.plain) hne hlen env hw

example : ∃ n, VectorTrie 0 2 [2, 1] n := by
  obtain ⟨-, -, t, h, -⟩ := C73_flat_partial (v := [2, 1]) (u := 4) (by decide) (by decide) (by decide) (by decide)
  have e := flatCtor_ok (S := [2, 1]) (u := 4) (d := 1) (by decide) (by decide) (by decide) (by decide) (by decide) (by decide)
  rw [h] at e
  exact ⟨_, .flat (u := 4) (by decide) (by decide) (by decide) (by decide) h (congrArg FlatTrie.height (Except.ok.inj e))⟩

/-- C73 is false of the code: `{1, 2}` given as `2, 1` becomes `{2, 3}` in flat and level-wise tries of universe 4, and `{1, 8}` given
as `8, 1` becomes `{8, 9}` in fast tries of 8-bit words and universe 16. Nothing is reported. -/
theorem C73_order_negation (junk : FastJunk) (il : Bool) (pad : Nat) :
    (∃ t, flatCtor [2, 1] 4 = .ok t ∧ t.decode pad [] = .ok [2, 3]) ∧
    (∃ t, levelCtor [2, 1] 4 = .ok t ∧ t.decode il pad [] = .ok [2, 3]) ∧
    ∃ t, fastCtor 3 junk [8, 1] 16 = .ok t ∧ t.decode 3 pad [] = .ok [8, 9] := by
  obtain ⟨-, -, t1, h1, -, d1⟩ := C73_flat_partial (v := [2, 1]) (u := 4) (by decide) (by decide) (by decide) (by decide)
  obtain ⟨-, -, t2, h2, -, d2⟩ := C73_level_partial (v := [2, 1]) (u := 4) (by decide) (by decide) (by decide) (by decide)
  obtain ⟨-, -, t3, h3, -, d3⟩ := C73_fast_partial (lg := 3) (by decide) (v := [8, 1]) (u := 16) (by decide) (by decide) (by decide)
    (by decide) junk
  exact ⟨⟨t1, h1, (d1 pad []).trans (by decide)⟩, ⟨t2, h2, (d2 il pad []).trans (by decide)⟩,
    ⟨t3, h3, (d3 pad []).trans (by decide)⟩⟩

end CBT
