import Verif.Proof.FastRep

/-!
# The constructors of flat and fast tries on vectors of any length

The number of elements is kept in a `uint32_t`. The queue starts with the range from 0 to that number minus 1, so
the constructors look at a prefix of the vector only.
-/

namespace CBT

theorem kept_count {n : Nat} (hn : 0 < n) : (n % 2 ^ 32 + 2 ^ 32 - 1) % 2 ^ 32 = (n - 1) % 2 ^ 32 := by omega

theorem kept_le {n : Nat} (hn : 0 < n) : (n - 1) % 2 ^ 32 + 1 ≤ n := by omega

/-- The third component of an entry of the queue is never used. -/
theorem flatLoop_entry {S : List Nat} {h f l r c c' : Nat} {q : List (Nat × Nat × Nat)} (s : FlatSt) :
    flatLoop S h f { s with q := (l, r, c) :: q } = flatLoop S h f { s with q := (l, r, c') :: q } := by
  cases f <;> rfl

theorem fastLoop_entry {lg : Nat} {S : List Nat} {h hu f l r c c' : Nat} {q : List (Nat × Nat × Nat)} (s : FastSt) :
    fastLoop lg S h hu f { s with q := (l, r, c) :: q } = fastLoop lg S h hu f { s with q := (l, r, c') :: q } := by
  cases f <;> rfl

theorem kept_at {S : List Nat} (hS : S ≠ []) : At S (0, S.take ((S.length - 1) % 2 ^ 32 + 1)) := by
  refine ⟨?_, [], S.drop ((S.length - 1) % 2 ^ 32 + 1), by simp, rfl⟩
  cases S with
  | nil => exact absurd rfl hS
  | cons x S => simp

theorem kept_length {S : List Nat} (hS : S ≠ []) :
    (S.take ((S.length - 1) % 2 ^ 32 + 1)).length = (S.length - 1) % 2 ^ 32 + 1 := by
  have := kept_le (List.length_pos_iff.2 hS)
  rw [List.length_take, Nat.min_eq_left this]

/-- `flatCtor_ok` for vectors of any length. -/
theorem flatCtor_kept {S : List Nat} {u d : Nat} (hS : S ≠ []) (hlen : S.length < 2 ^ 64) (hu : 2 ≤ u)
    (hd : Nat.log2 (u - 1) = d) (hd1 : 1 ≤ d) (hd62 : d ≤ 61) :
    flatCtor S u = .ok {
      height := d + 1, heightWithRuns := 0, runsEncoded := false, emptyTrie := false,
      bTrie := flatBits d [flatTree d (S.take ((S.length - 1) % 2 ^ 32 + 1))],
      lastLevel := (leaves d [flatTree d (S.take ((S.length - 1) % 2 ^ 32 + 1))]).flatMap leafBits } := by
  have hpos : 0 < S.length := List.length_pos_iff.2 hS
  have hk := kept_length hS
  have hat := kept_at hS
  generalize S.take ((S.length - 1) % 2 ^ 32 + 1) = K at hk hat ⊢
  have hd0 : d ≠ 0 := by omega
  obtain ⟨s, e, m', M', h1, h2, h3, h4⟩ := flat_run (set := S) (h := d + 1) hlen d 0 [(0, K)] []
    (2 * (2 ^ (d + 1) - 1)) (2 ^ (d + 1)) (2 ^ (d + 1)) 0 (by omega) (by simp)
    (by intro g hg; simp at hg; subst hg; exact hat)
    (by simp) (by simp [Nat.pow_succ]; omega) (by simp)
  simp only [hd0, List.map_cons, List.map_nil, ent, List.length_cons, List.length_nil, ite_self, List.nil_append,
    Nat.zero_add, hk, Nat.add_sub_cancel] at e
  rw [flatCtor, heightOf_ok hu, hd, kept_count hpos]
  have e' := (flatLoop_entry (S := S) (h := d + 1) (f := 2 ^ (d + 1)) (l := 0) (r := (S.length - 1) % 2 ^ 32)
    (c := S.length % 2 ^ 32) (c' := (S.length - 1) % 2 ^ 32 + 1) (q := [])
    { q := [], level := 0, nodesCurr := 1, count := 0, nodesNext := 0, index := 0, total := 0, nodesLast := 0,
      bTrie := List.replicate (2 * (2 ^ (d + 1) - 1)) false, lastLevel := List.replicate (2 ^ (d + 1)) false }).trans e
  simp only at e'
  simp only [R_bind_ok, maxNodes, show d + 1 ≤ 62 by omega, if_true, e']
  simp only [trees, List.map_cons, List.map_nil, List.nil_append, hd0, if_false] at h1 h2 h3 h4
  have t1 : s.total - 2 * s.nodesLast = (flatBits d [flatTree d K]).length := by
    rw [h3, h1, h2, h4]
    simp only [List.length_append, List.length_replicate, Nat.add_sub_cancel, length_leafBits, flatTree]
  have t2 : 2 * s.nodesLast = ((leaves d [flatTree d K]).flatMap leafBits).length := by
    rw [h4, length_leafBits]; rfl
  rw [t1, t2, h1, h2]
  rw [show mkTr 1 lfFlat d K = flatTree d K from rfl, bvResize_prefix, bvResize_prefix]

/-- `fastCtor_ok` for vectors of any length. -/
theorem fastCtor_kept {lg : Nat} {junk : FastJunk} {S : List Nat} {u d : Nat} (hS : S ≠ []) (hlen : S.length < 2 ^ 64)
    (hu : 2 ≤ u) (hd : Nat.log2 (u - 1) + 1 = d + lg) (hd62 : d + lg ≤ 62) (hlg : 1 ≤ lg) :
    fastCtor lg junk S u = .ok {
      height := d + 1, heightWithRuns := junk.heightWithRuns, heightU := d + lg, runsEncoded := false, emptyTrie := junk.emptyTrie,
      bTrie := flatBits d [fastTree lg d (S.take ((S.length - 1) % 2 ^ 32 + 1))],
      lastLevel := leaves d [fastTree lg d (S.take ((S.length - 1) % 2 ^ 32 + 1))] } := by
  have hpos : 0 < S.length := List.length_pos_iff.2 hS
  have hk := kept_length hS
  have hat := kept_at hS
  generalize S.take ((S.length - 1) % 2 ^ 32 + 1) = K at hk hat ⊢
  have hp : 2 ^ (d + 1) ≤ 2 ^ (d + lg) := Nat.pow_le_pow_right (by omega) (by omega)
  have hp' : 2 ^ (d + 1) = 2 * 2 ^ d := by rw [Nat.pow_succ]; omega
  obtain ⟨s, e, m', h1, h2, h3⟩ := fast_run (lg := lg) (set := S) (height := d + 1) (hu := d + lg) hlen (by omega) d 0 [(0, K)] []
    (2 * (2 ^ (d + lg) - 1)) (2 ^ (d + lg)) (by omega) (by simp)
    (by intro g hg; simp at hg; subst hg; exact hat)
    (by simp; omega) (by simp; omega)
  simp only [List.map_cons, List.map_nil, ent, List.length_cons, List.length_nil, List.nil_append, Nat.zero_add, hk,
    Nat.add_sub_cancel] at e
  rw [fastCtor, heightOf_ok hu, hd, kept_count hpos]
  have h4 : ¬ d + lg + 1 < lg := by omega
  have h5 : d + lg + 1 - lg = d + 1 := by omega
  have e' := (fastLoop_entry (lg := lg) (S := S) (h := d + 1) (hu := d + lg) (f := 2 ^ (d + lg)) (l := 0)
    (r := (S.length - 1) % 2 ^ 32) (c := S.length % 2 ^ 32) (c' := (S.length - 1) % 2 ^ 32 + 1) (q := [])
    { q := [], level := 0, nodesCurr := 1, count := 0, nodesNext := 0, index := 0,
      bTrie := List.replicate (2 * (2 ^ (d + lg) - 1)) false, lastLevel := [] }).trans e
  simp only at e'
  simp only [R_bind_ok, maxNodes, h4, h5, hd62, if_true, if_false, e']
  simp only [trees, List.map_cons, List.map_nil, List.nil_append] at h1 h2 h3
  rw [h3, h1, h2, bvResize_prefix]; rfl

end CBT
