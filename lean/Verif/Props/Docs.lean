import Verif.Model.Size
import Verif.Props.CommandLine
import Verif.Props.Serialize

/-!
# C44, C45, C46: what the documentation and `size_in_bytes` say
-/

namespace CBT

open Spec

/-! ## C44: `--min_size` -/

/-- A builder's file holds the `sets`, all of them and in order: header, number of sets, the two numbers of the collection, and for
every set what `make` writes for it. -/
def FileOf (make : Nat → List Nat → R Bytes) (head : Bytes) (one u : Nat) (sets : List (List Nat)) (f : Bytes) : Prop :=
  ∃ parts : List Bytes, parts.length = sets.length ∧
    (∀ j (h : j < sets.length) (h' : j < parts.length), make j sets[j] = .ok parts[j]) ∧
    f = head ++ leBytes 4 sets.length ++ leBytes 4 one ++ leBytes 4 u ++ parts.flatten

/-- C44 (partial), `build_tries`: the file holds what the README says for `m + 1`. -/
theorem C44_min_size_partial (F : Formats) (pad : Nat) (ltr : Bool) {m mx rank block : Nat} (runs levelwise : Bool) {one u : Nat}
    (hone : one < 2 ^ 32) (hu : u < 2 ^ 32) {lists : List (List Nat)} (hl : ∀ l ∈ lists, l.length < 2 ^ 30)
    (hx : ∀ l ∈ lists, ∀ x ∈ l, x < 2 ^ 32) (hn : (keptByReadme (m + 1) mx lists).length < 2 ^ 32) (f : Bytes) :
    buildTries F pad ltr m mx rank block runs levelwise (collectionBytes one u lists) = .ok f ↔
      FileOf (makeTrie F pad ltr rank block runs levelwise u) (triesFileHeader rank block runs levelwise) one u
        (keptByReadme (m + 1) mx lists) f :=
  (C34_tries F pad ltr runs levelwise hone hu hl hx hn).2 f

/-- C44 (partial), `build_fastTries`: likewise. -/
theorem C44_fast_min_size_partial (B : BvIO) (K : Nat → RankIO) (pad : Nat) (junk : Nat → FastJunk) {m mx rank lg : Nat}
    (hlg : 3 ≤ lg ∧ lg ≤ 6) (runs levelwise : Bool) {one u : Nat} (hone : one < 2 ^ 32) (hu : u < 2 ^ 32) {lists : List (List Nat)}
    (hl : ∀ l ∈ lists, l.length < 2 ^ 30) (hx : ∀ l ∈ lists, ∀ x ∈ l, x < 2 ^ 32)
    (hn : (keptByReadme (m + 1) mx lists).length < 2 ^ 32) (f : Bytes) :
    buildFast B K pad junk m mx rank runs levelwise (2 ^ lg) (collectionBytes one u lists) = .ok (some f) ↔
      FileOf (makeFast B (K (if rank = 0 then 0 else 2)) lg pad junk runs u) (fastFileHeader rank runs levelwise (2 ^ lg)) one u
        (keptByReadme (m + 1) mx lists) f :=
  (C34_fast B K pad junk hlg runs levelwise hone hu hl hx hn).2 f

/-- Without lists of length `m`, the README means the same for `m` and `m + 1`. -/
theorem keptByReadme_succ {m mx : Nat} {lists : List (List Nat)} (h : ∀ l ∈ lists, l.length ≠ m) :
    keptByReadme (m + 1) mx lists = keptByReadme m mx lists := by
  refine List.filter_congr fun l hl => ?_
  have := h l hl
  congr 1
  exact decide_eq_decide.2 (by omega)

/-- C44 (partial), `build_tries`: if no list has length `m`, the file holds what the README says for `m`. -/
theorem C44_min_size_no_list_partial (F : Formats) (pad : Nat) (ltr : Bool) {m mx rank block : Nat} (runs levelwise : Bool) {one u : Nat}
    (hone : one < 2 ^ 32) (hu : u < 2 ^ 32) {lists : List (List Nat)} (hl : ∀ l ∈ lists, l.length < 2 ^ 30)
    (hx : ∀ l ∈ lists, ∀ x ∈ l, x < 2 ^ 32) (hn : (keptByReadme m mx lists).length < 2 ^ 32) (hm : ∀ l ∈ lists, l.length ≠ m) (f : Bytes) :
    buildTries F pad ltr m mx rank block runs levelwise (collectionBytes one u lists) = .ok f ↔
      FileOf (makeTrie F pad ltr rank block runs levelwise u) (triesFileHeader rank block runs levelwise) one u
        (keptByReadme m mx lists) f := by
  rw [← keptByReadme_succ hm] at hn ⊢
  exact C44_min_size_partial F pad ltr runs levelwise hone hu hl hx hn f

/-- C44 (partial), `build_fastTries`: likewise. -/
theorem C44_fast_min_size_no_list_partial (B : BvIO) (K : Nat → RankIO) (pad : Nat) (junk : Nat → FastJunk) {m mx rank lg : Nat}
    (hlg : 3 ≤ lg ∧ lg ≤ 6) (runs levelwise : Bool) {one u : Nat} (hone : one < 2 ^ 32) (hu : u < 2 ^ 32) {lists : List (List Nat)}
    (hl : ∀ l ∈ lists, l.length < 2 ^ 30) (hx : ∀ l ∈ lists, ∀ x ∈ l, x < 2 ^ 32)
    (hn : (keptByReadme m mx lists).length < 2 ^ 32) (hm : ∀ l ∈ lists, l.length ≠ m) (f : Bytes) :
    buildFast B K pad junk m mx rank runs levelwise (2 ^ lg) (collectionBytes one u lists) = .ok (some f) ↔
      FileOf (makeFast B (K (if rank = 0 then 0 else 2)) lg pad junk runs u) (fastFileHeader rank runs levelwise (2 ^ lg)) one u
        (keptByReadme m mx lists) f := by
  rw [← keptByReadme_succ hm] at hn ⊢
  exact C44_fast_min_size_partial B K pad junk hlg runs levelwise hone hu hl hx hn f

example : keptByReadme 2 100 Ex.coll = [[3, 4, 17, 31], [0, 3, 17, 31, 60], [0, 1, 2, 3, 4, 5, 6, 7, 8, 9, 10, 11, 12, 13, 14, 15, 31]] ∧
    (∀ l ∈ Ex.coll, l.length ≠ 2) ∧ keptByReadme 2 100 Ex.coll = kept 1 100 Ex.coll := by decide +kernel

/-- The filter of the builders and the documented one, for a collection with a list of exactly `m` elements. -/
theorem length_kept_lt {m mx : Nat} (hm : m ≤ mx) {lists : List (List Nat)} {l : List Nat} (h : l ∈ lists) (hlm : l.length = m) :
    (kept m mx lists).length < (keptByReadme m mx lists).length := by
  have hsub : (kept m mx lists).Sublist (keptByReadme m mx lists) :=
    List.monotone_filter_right lists fun l hl => by
      simp only [Bool.and_eq_true, decide_eq_true_eq] at hl ⊢; omega
  rcases Nat.lt_or_ge (kept m mx lists).length (keptByReadme m mx lists).length with h' | h'
  · exact h'
  · have e := hsub.eq_of_length_le h'
    have : l ∈ kept m mx lists := by
      rw [e]; exact List.mem_filter.2 ⟨h, by simp only [Bool.and_eq_true, decide_eq_true_eq]; omega⟩
    have := (List.mem_filter.1 this).2
    simp only [Bool.and_eq_true, decide_eq_true_eq] at this
    omega

/-- C44 is false whenever the collection has a list of exactly `m` elements: it is dropped, and the number of sets in the header of
the file is smaller than documented. -/
theorem C44_min_size_negation (F : Formats) (pad : Nat) (ltr : Bool) {m mx rank block : Nat} (runs levelwise : Bool) {one u : Nat}
    (hone : one < 2 ^ 32) (hu : u < 2 ^ 32) {lists : List (List Nat)} (hl : ∀ l ∈ lists, l.length < 2 ^ 30)
    (hx : ∀ l ∈ lists, ∀ x ∈ l, x < 2 ^ 32) (hn : (keptByReadme m mx lists).length < 2 ^ 32) (hm : m ≤ mx)
    {l : List Nat} (h : l ∈ lists) (hlm : l.length = m) {f : Bytes}
    (hf : buildTries F pad ltr m mx rank block runs levelwise (collectionBytes one u lists) = .ok f) :
    ∃ n rest, f = triesFileHeader rank block runs levelwise ++ (leBytes 4 n ++ rest) ∧ n < (keptByReadme m mx lists).length := by
  have key := length_kept_lt hm h hlm (mx := mx)
  obtain ⟨parts, -, -, rfl⟩ := ((C34_tries F pad ltr runs levelwise hone hu hl hx (Nat.lt_trans key hn)).2 f).1 hf
  exact ⟨(kept m mx lists).length, leBytes 4 one ++ (leBytes 4 u ++ parts.flatten), by simp only [List.append_assoc], key⟩

/-- C44 is false for `build_fastTries` likewise. -/
theorem C44_fast_min_size_negation (B : BvIO) (K : Nat → RankIO) (pad : Nat) (junk : Nat → FastJunk) {m mx rank lg : Nat}
    (hlg : 3 ≤ lg ∧ lg ≤ 6) (runs levelwise : Bool) {one u : Nat} (hone : one < 2 ^ 32) (hu : u < 2 ^ 32) {lists : List (List Nat)}
    (hl : ∀ l ∈ lists, l.length < 2 ^ 30) (hx : ∀ l ∈ lists, ∀ x ∈ l, x < 2 ^ 32) (hn : (keptByReadme m mx lists).length < 2 ^ 32)
    (hm : m ≤ mx) {l : List Nat} (h : l ∈ lists) (hlm : l.length = m) {f : Bytes}
    (hf : buildFast B K pad junk m mx rank runs levelwise (2 ^ lg) (collectionBytes one u lists) = .ok (some f)) :
    ∃ n rest, f = fastFileHeader rank runs levelwise (2 ^ lg) ++ (leBytes 4 n ++ rest) ∧ n < (keptByReadme m mx lists).length := by
  have key := length_kept_lt hm h hlm (mx := mx)
  obtain ⟨parts, -, -, rfl⟩ := ((C34_fast B K pad junk hlg runs levelwise hone hu hl hx (Nat.lt_trans key hn)).2 f).1 hf
  exact ⟨(kept m mx lists).length, leBytes 4 one ++ (leBytes 4 u ++ parts.flatten), by simp only [List.append_assoc], key⟩

example : (keptByReadme 1 100 Ex.coll).length = 4 ∧ (kept 1 100 Ex.coll).length = 3 := by decide +kernel

/-! ## C45: the numbers of the sets -/

/-- C45 (partial), `build_tries` and `intersection_query_log`: if none of the first `k` lists of the collection is dropped, queries
about them are answered with the intersections of the lists at these positions of the complete collection. -/
theorem C45_positions_partial (F : Formats) (pad : Nat) {mn mx rank block : Nat} (hr : rank < 2 ^ 32) (hb : block < 2 ^ 32)
    (runs levelwise : Bool) (hs : Supported rank block levelwise) {one u : Nat} (hone : one < 2 ^ 32) (hu : 3 ≤ u) (hu' : u < 2 ^ 32)
    {lists : List (List Nat)} (hl : ∀ l ∈ lists, l.length < 2 ^ 30) (hv : ∀ l ∈ kept mn mx lists, ValidSet l u)
    (hn : (kept mn mx lists).length < 2 ^ 32)
    (hc : runs = true → levelwise = false → ∀ l ∈ kept mn mx lists, ∃ x ∈ l, ∃ y, y / 4 = x / 4 ∧ y ∉ l)
    (env : Nat → Env) (hw : ∀ i, (env i).hw ≠ 0)
    {k : Nat} (hk : ∀ l ∈ lists.take k, mn < l.length ∧ l.length ≤ mx) (hkl : k ≤ lists.length)
    {queries : List (List Nat)} (hq0 : ∀ q ∈ queries, q ≠ []) (hq1 : ∀ q ∈ queries, ∀ i ∈ q, i < k) :
    ∃ f as, buildTries F pad true mn mx rank block runs levelwise (collectionBytes one u lists) = .ok f ∧
      queryLog F pad false env queries f = .ok as ∧ List.Forall₂ (Answers lists) queries as := by
  obtain ⟨f, as, h1, h2, h3⟩ := C43_tries_end_to_end_partial F pad hr hb runs levelwise hs hone hu hu' hl hv hn hc env hw hq0
    (fun q h i hi => Nat.lt_of_lt_of_le (hq1 q h i hi) (le_length_kept lists k hk hkl))
  exact ⟨f, as, h1, h2, forall_answers_kept hk hq1 h3⟩

/-- C45 (partial), likewise for parallel queries without runs. -/
theorem C45_parallel_positions_partial (F : Formats) (pad : Nat) {mn mx rank block : Nat} (hr : rank < 2 ^ 32) (hb : block < 2 ^ 32)
    (levelwise : Bool) (hs : Supported rank block levelwise) {one u : Nat} (hone : one < 2 ^ 32) (hu : 3 ≤ u) (hu' : u < 2 ^ 32)
    {lists : List (List Nat)} (hl : ∀ l ∈ lists, l.length < 2 ^ 30) (hv : ∀ l ∈ kept mn mx lists, ValidSet l u)
    (hn : (kept mn mx lists).length < 2 ^ 32) (env : Nat → Env) (hw : ∀ i, (env i).hw ≠ 0 ∧ (env i).hw < 2 ^ 16)
    {k : Nat} (hk : ∀ l ∈ lists.take k, mn < l.length ∧ l.length ≤ mx) (hkl : k ≤ lists.length)
    {queries : List (List Nat)} (hq0 : ∀ q ∈ queries, q ≠ []) (hq1 : ∀ q ∈ queries, ∀ i ∈ q, i < k) :
    ∃ f as, buildTries F pad true mn mx rank block false levelwise (collectionBytes one u lists) = .ok f ∧
      queryLog F pad true env queries f = .ok as ∧ List.Forall₂ (Answers lists) queries as := by
  obtain ⟨f, as, h1, h2, h3⟩ := C43_tries_parallel_plain_partial F pad hr hb levelwise hs hone hu hu' hl hv hn env hw hq0
    (fun q h i hi => Nat.lt_of_lt_of_le (hq1 q h i hi) (le_length_kept lists k hk hkl))
  exact ⟨f, as, h1, h2, forall_answers_kept hk hq1 h3⟩

/-- C45 (partial), `build_fastTries` and `intersection_querylog_fastTrie`. -/
theorem C45_fast_positions_partial (B : BvIO) (K : Nat → RankIO) {lg : Nat} (hlg : 3 ≤ lg ∧ lg ≤ 6) (pad : Nat) (junk junk' : Nat → FastJunk)
    (hj : ∀ i, (junk i).heightWithRuns < 2 ^ 16) {mn mx rank : Nat} (hr : rank < 2 ^ 32) (hr1 : rank ≠ 1) (runs levelwise : Bool)
    {one u : Nat} (hone : one < 2 ^ 32) (hu : 2 ^ (lg - 1) < u) (hu' : u < 2 ^ 32) {lists : List (List Nat)}
    (hl : ∀ l ∈ lists, l.length < 2 ^ 30) (hv : ∀ l ∈ kept mn mx lists, ValidSet l u) (hn : (kept mn mx lists).length < 2 ^ 32)
    (env : Nat → Env) (hw : ∀ i, (env i).hw ≠ 0)
    {k : Nat} (hk : ∀ l ∈ lists.take k, mn < l.length ∧ l.length ≤ mx) (hkl : k ≤ lists.length)
    {queries : List (List Nat)} (hq : queries ≠ []) (hq0 : ∀ q ∈ queries, q ≠ []) (hq1 : ∀ q ∈ queries, ∀ i ∈ q, i < k) :
    ∃ f as, buildFast B K pad junk mn mx rank runs levelwise (2 ^ lg) (collectionBytes one u lists) = .ok (some f) ∧
      queryFast B K pad junk' false env queries f = .ok as ∧ List.Forall₂ (Answers lists) queries as := by
  obtain ⟨f, as, h1, h2, h3⟩ := C35_fast_end_to_end B K hlg pad junk junk' hj hr hr1 runs levelwise hone hu hu' hl hv hn env hw hq hq0
    (fun q h _ i hi => Nat.lt_of_lt_of_le (hq1 q h i hi) (le_length_kept lists k hk hkl))
  exact ⟨f, as, h1, h2, forall_answers_kept hk hq1 h3⟩

/-- C45 (partial), likewise for parallel queries without runs. -/
theorem C45_fast_parallel_positions_partial (B : BvIO) (K : Nat → RankIO) {lg : Nat} (hlg : 3 ≤ lg ∧ lg ≤ 6) (pad : Nat) (junk junk' : Nat → FastJunk)
    (hj : ∀ i, (junk i).heightWithRuns < 2 ^ 16) {mn mx rank : Nat} (hr : rank < 2 ^ 32) (hr1 : rank ≠ 1) (levelwise : Bool)
    {one u : Nat} (hone : one < 2 ^ 32) (hu : 2 ^ lg < u) (hu' : u < 2 ^ 32) {lists : List (List Nat)}
    (hl : ∀ l ∈ lists, l.length < 2 ^ 30) (hv : ∀ l ∈ kept mn mx lists, ValidSet l u) (hn : (kept mn mx lists).length < 2 ^ 32)
    (env : Nat → Env) (hw : ∀ i, (env i).hw ≠ 0 ∧ (env i).hw < 2 ^ 16)
    {k : Nat} (hk : ∀ l ∈ lists.take k, mn < l.length ∧ l.length ≤ mx) (hkl : k ≤ lists.length)
    {queries : List (List Nat)} (hq : queries ≠ []) (hq0 : ∀ q ∈ queries, q ≠ []) (hq1 : ∀ q ∈ queries, ∀ i ∈ q, i < k) :
    ∃ f as, buildFast B K pad junk mn mx rank false levelwise (2 ^ lg) (collectionBytes one u lists) = .ok (some f) ∧
      queryFast B K pad junk' true env queries f = .ok as ∧ List.Forall₂ (Answers lists) queries as := by
  obtain ⟨f, as, h1, h2, h3⟩ := C35_fast_parallel_plain B K hlg pad junk junk' hj hr hr1 levelwise hone hu hu' hl hv hn env hw hq hq0
    (fun q h _ i hi => Nat.lt_of_lt_of_le (hq1 q h i hi) (le_length_kept lists k hk hkl))
  exact ⟨f, as, h1, h2, forall_answers_kept hk hq1 h3⟩

example : ∀ l ∈ Ex.coll.take 1, 1 < l.length ∧ l.length ≤ 100 := by decide

/-- C45 is false in general, even with the default filter, which drops empty lists: query 1 is answered with list 2 here. -/
theorem C45_positions_negation :
    (buildTries Ex.formats 0 true 0 (2 ^ 64 - 1) 0 512 false false (collectionBytes 1 64 Ex.coll) >>= fun f =>
      queryLog Ex.formats 0 false (fun _ => ⟨4, [], []⟩) [[1]] f) = .ok [some [0, 3, 17, 31, 60]] ∧
    ¬ List.Forall₂ (Answers Ex.coll) [[1]] [some [0, 3, 17, 31, 60]] := by
  refine ⟨by decide +kernel, fun h => ?_⟩
  cases h with
  | cons h _ =>
    obtain ⟨R, e, h⟩ := h.1 (by decide)
    injection e with e; subst e
    have := (h.mem 60).1 (by decide)
    exact absurd this (by decide)

/-! ## C46: `size_in_bytes` -/

/-- C46 is false, flat tries: `size_in_bytes` is two less than the number of bytes `serialize` writes. -/
theorem C46_flat_size_negation (B L : BvIO) (K : RankIO) (ltr : Bool) (t : FlatTrie) (h : (t.serialize B L K ltr).1.length < 2 ^ 64) :
    t.sizeInBytes B L K + 2 = (t.serialize B L K ltr).1.length := by
  have e : (t.serialize B L K ltr).1.length = (B.write t.bTrie).length + (K.write (K.of t.bTrie)).length + (L.write t.lastLevel).length + 6 := by
    cases ltr <;> simp [FlatTrie.serialize, header, boolByte, length_leBytes] <;> omega
  rw [e] at h ⊢
  rw [FlatTrie.sizeInBytes, Nat.mod_eq_of_lt (by omega)]

/-- C46 is false, level-wise tries: likewise. -/
theorem C46_level_size_negation (B : BvIO) (K : RankIO) (t : LevelTrie) (h : (t.serialize B K).1.length < 2 ^ 64) :
    t.sizeInBytes B K + 2 = (t.serialize B K).1.length := by
  have e : (t.serialize B K).1.length = ((t.bTrie.take (t.bTrie.length % 2 ^ 16)).map fun v => (B.write v).length).sum +
      ((t.bTrie.take (t.bTrie.length % 2 ^ 16 - 1)).map fun v => (K.write (K.of v)).length).sum + 6 := by
    simp only [LevelTrie.serialize, header, boolByte, List.length_append, List.length_flatMap, length_leBytes, List.length_cons, List.length_nil]
    omega
  rw [e] at h ⊢
  simp only [LevelTrie.sizeInBytes]
  rw [Nat.mod_eq_of_lt (by omega)]

/-- C46 is false, fast tries: `size_in_bytes` is 14 more than the number of bytes `serialize` writes. -/
theorem C46_fast_size_negation (B : BvIO) (K : RankIO) (lg : Nat) (t : FastTrie) (h : (t.serialize B K lg).1.length + 14 < 2 ^ 64) :
    t.sizeInBytes B K lg = (t.serialize B K lg).1.length + 14 := by
  have e : (t.serialize B K lg).1.length = (B.write t.bTrie).length + (K.write (K.of t.bTrie)).length + 2 ^ (lg - 3) * t.lastLevel.length + 14 := by
    simp only [FastTrie.serialize, header, boolByte, List.length_append, length_words, length_leBytes, List.length_cons, List.length_nil]
    omega
  rw [e] at h ⊢
  rw [FastTrie.sizeInBytes, Nat.mod_eq_of_lt (by omega)]
  omega

end CBT
