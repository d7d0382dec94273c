import Verif.Proof.LongLists
import Verif.Props.Tools

/-!
# C104: the builders on lists of `2^30` elements and more
-/

namespace CBT

open Spec

/-- C104 (partial), `build_tries`. If the lists that are left out are shorter than `2^30`, the tries written are those of the kept lists,
of whatever length, all of them and in order, each from the whole list. Nothing is said about the number `n` in the header; if all lists
are shorter than `2^30` it is the number of kept lists (C34). -/
theorem C104_tries_partial (F : Formats) (pad : Nat) (ltr : Bool) {mn mx rank block : Nat} (runs levelwise : Bool) {one u : Nat}
    (hone : one < 2 ^ 32) (hu : u < 2 ^ 32) {lists : List (List Nat)} (hl : ∀ l ∈ lists, l.length < 2 ^ 32)
    (hs : ∀ l ∈ lists, l ∉ kept mn mx lists → l.length < 2 ^ 30) (hx : ∀ l ∈ lists, ∀ x ∈ l, x < 2 ^ 32) :
    ∃ n, ∀ f, buildTries F pad ltr mn mx rank block runs levelwise (collectionBytes one u lists) = .ok f ↔
      ∃ parts : List Bytes, parts.length = (kept mn mx lists).length ∧
        (∀ j (h : j < (kept mn mx lists).length) (h' : j < parts.length),
          makeTrie F pad ltr rank block runs levelwise u j (kept mn mx lists)[j] = .ok parts[j]) ∧
        f = triesFileHeader rank block runs levelwise ++ leBytes 4 n ++ leBytes 4 one ++ leBytes 4 u ++ parts.flatten :=
  buildFile_long_iff hone hu hl hs hx

/-- C104 (partial), `build_fastTries`. -/
theorem C104_fast_partial (B : BvIO) (K : Nat → RankIO) (pad : Nat) (junk : Nat → FastJunk) {mn mx rank lg : Nat} (hlg : 3 ≤ lg ∧ lg ≤ 6)
    (runs levelwise : Bool) {one u : Nat} (hone : one < 2 ^ 32) (hu : u < 2 ^ 32) {lists : List (List Nat)}
    (hl : ∀ l ∈ lists, l.length < 2 ^ 32) (hs : ∀ l ∈ lists, l ∉ kept mn mx lists → l.length < 2 ^ 30)
    (hx : ∀ l ∈ lists, ∀ x ∈ l, x < 2 ^ 32) :
    ∃ n, ∀ f, buildFast B K pad junk mn mx rank runs levelwise (2 ^ lg) (collectionBytes one u lists) = .ok (some f) ↔
      ∃ parts : List Bytes, parts.length = (kept mn mx lists).length ∧
        (∀ j (h : j < (kept mn mx lists).length) (h' : j < parts.length),
          makeFast B (K (if rank = 0 then 0 else 2)) lg pad junk runs u j (kept mn mx lists)[j] = .ok parts[j]) ∧
        f = fastFileHeader rank runs levelwise (2 ^ lg) ++ leBytes 4 n ++ leBytes 4 one ++ leBytes 4 u ++ parts.flatten := by
  obtain ⟨n, h⟩ := buildFile_long_iff (mn := mn) (mx := mx) (hdr := fastFileHeader rank runs levelwise (2 ^ lg))
    (make := makeFast B (K (if rank = 0 then 0 else 2)) lg pad junk runs) hone hu hl hs hx
  refine ⟨n, fun f => ?_⟩
  rw [← h f, buildFast, (wordLg_pow hlg).1]
  constructor
  · intro h
    simp only at h
    obtain ⟨f', h', e⟩ := bind_ok h
    injection e with e; injection e with e; rw [← e]; exact h'
  · intro h
    simp only [h, R_bind_ok]

/-- A collection with a list of `2^30` elements that meets the hypotheses: only the list that is not kept is short. -/
example {N : Nat} (hN : N = 2 ^ 30) : (∀ l ∈ [[7], List.range' 0 N], l ∉ kept 1 (2 ^ 31) [[7], List.range' 0 N] → l.length < 2 ^ 30) ∧
    (∀ l ∈ [[7], List.range' 0 N], l.length < 2 ^ 32) ∧ kept 1 (2 ^ 31) [[7], List.range' 0 N] = [List.range' 0 N] := by
  have hlen : (List.range' 0 N).length = N := List.length_range'
  have hk : kept 1 (2 ^ 31) [[7], List.range' 0 N] = [List.range' 0 N] := by
    rw [kept_neg (by decide), kept_pos]
    · rfl
    · rw [hlen]; simp only [Bool.and_eq_true, decide_eq_true_eq]; omega
  refine ⟨fun l h hn => ?_, fun l h => ?_, hk⟩
  · rw [hk] at hn
    rcases List.mem_cons.1 h with rfl | h
    · decide
    · exact absurd h hn
  · rcases List.mem_cons.1 h with rfl | h
    · decide
    · rw [List.mem_singleton.1 h, hlen]; omega

/-- C104 is false: on the collection whose only list has the numbers below `2^30`, with the default bounds, `build_tries` writes one trie,
and a header that announces 31; the first pass reads elements of the list as lengths. `intersection_query_log` then uses values that were not
read, whatever is asked, with all options it can read otherwise. -/
theorem C104_count_negation (F : Formats) (pad : Nat) {mx rank block : Nat} (hmx : 2 ^ 30 ≤ mx) (hr : rank < 2 ^ 32) (hb : block < 2 ^ 32)
    {runs levelwise : Bool} (hs : Supported rank block levelwise) {one u : Nat} (hone : one < 2 ^ 32) (hu : 2 ^ 30 ≤ u) (hu' : u < 2 ^ 32) :
    ValidSet (List.range' 0 (2 ^ 30)) u ∧
    ∃ f part, buildTries F pad true 0 mx rank block runs levelwise (collectionBytes one u [List.range' 0 (2 ^ 30)]) = .ok f ∧
      makeTrie F pad true rank block runs levelwise u 0 (List.range' 0 (2 ^ 30)) = .ok part ∧
      f = triesFileHeader rank block runs levelwise ++ leBytes 4 31 ++ leBytes 4 one ++ leBytes 4 u ++ part ∧
      ∀ parallel env queries, queryLog F pad parallel env queries f = .error .eof := by
  obtain ⟨N, hN⟩ : ∃ N, N = 2 ^ 30 := ⟨_, rfl⟩
  rw [← hN]
  have hv := valid_long hN hu
  obtain ⟨b, n, e1, e2⟩ := trie_saved F hs (runs := runs) hv (by rw [List.length_range']; omega) (by omega) (by omega) pad 0
  refine ⟨hv, _, b, buildFile_range hmx hN hone hu' e1, e1, rfl, fun parallel env queries => ?_⟩
  simp only [List.append_assoc]
  rw [queryLog, readTriesFileHeader_ok hr hb, R_bind_ok]
  simp only [loadSequences]
  rw [readLE_leBytes 4 _ _ (by omega), R_bind_ok]
  simp only
  rw [readLE_leBytes 4 one _ (by omega), R_bind_ok]
  simp only
  rw [readLE_leBytes 4 u _ (by omega), R_bind_ok]
  simp only
  have h := readMany_short (part := fun _ => b) (obj := fun _ => n) (loadTrie_nil F pad (runs := runs) hs) 1 0 31
    (fun j _ _ rest => e2.loads rest) (by omega)
  have e : (List.range' 0 1).flatMap (fun _ => b) = b := by simp
  rw [e] at h
  rw [h]
  rfl

/-- C104 is false of `build_fastTries` likewise: the header announces 31 tries, and one follows. -/
theorem C104_fast_count_negation (B : BvIO) (K : Nat → RankIO) (pad : Nat) (junk : Nat → FastJunk) {mx rank lg : Nat} (hmx : 2 ^ 30 ≤ mx)
    (hlg : 3 ≤ lg ∧ lg ≤ 6) (hj : (junk 0).heightWithRuns < 2 ^ 16) (runs levelwise : Bool) {one u : Nat} (hone : one < 2 ^ 32)
    (hu : 2 ^ 30 ≤ u) (hu' : u < 2 ^ 32) :
    ∃ f part, buildFast B K pad junk 0 mx rank runs levelwise (2 ^ lg) (collectionBytes one u [List.range' 0 (2 ^ 30)]) = .ok (some f) ∧
      makeFast B (K (if rank = 0 then 0 else 2)) lg pad junk runs u 0 (List.range' 0 (2 ^ 30)) = .ok part ∧
      f = fastFileHeader rank runs levelwise (2 ^ lg) ++ leBytes 4 31 ++ leBytes 4 one ++ leBytes 4 u ++ part := by
  obtain ⟨N, hN⟩ : ∃ N, N = 2 ^ 30 := ⟨_, rfl⟩
  rw [← hN]
  have hw : 2 ^ (lg - 1) < u := by
    have : 2 ^ (lg - 1) ≤ 2 ^ 5 := Nat.pow_le_pow_right (by omega) (by omega)
    omega
  obtain ⟨b, o, e1, -, -⟩ := fast_saved B (K (if rank = 0 then 0 else 2)) hlg (valid_long hN hu) (by rw [List.length_range']; omega) hw
    (by omega) junk 0 hj pad runs
  refine ⟨_, b, ?_, e1, rfl⟩
  rw [buildFast, (wordLg_pow hlg).1]
  simp only
  rw [buildFile_range hmx hN hone hu' e1, R_bind_ok]

/-- C104 is false also where such a list is to be left out: both builders then do what they do for a collection of other lists, and write
tries of sets that are not in the collection. -/
theorem C104_left_out_negation (F : Formats) (pad : Nat) (ltr : Bool) (B : BvIO) (K : Nat → RankIO) (junk : Nat → FastJunk)
    {mn mx rank block wsize : Nat} (hmx : mx < 2 ^ 30 - 1) (runs levelwise : Bool) {one u : Nat} (hone : one < 2 ^ 32) (hu : u < 2 ^ 32) :
    kept mn mx [List.range' 0 (2 ^ 30)] = [] ∧
    buildTries F pad ltr mn mx rank block runs levelwise (collectionBytes one u [List.range' 0 (2 ^ 30)]) =
      buildTries F pad ltr mn mx rank block runs levelwise
        (collectionBytes one u ((List.range' 1 29).map fun k => List.range' (2 ^ k) (2 ^ k - 1))) ∧
    buildFast B K pad junk mn mx rank runs levelwise wsize (collectionBytes one u [List.range' 0 (2 ^ 30)]) =
      buildFast B K pad junk mn mx rank runs levelwise wsize
        (collectionBytes one u ((List.range' 1 29).map fun k => List.range' (2 ^ k) (2 ^ k - 1))) := by
  obtain ⟨N, hN⟩ : ∃ N, N = 2 ^ 30 := ⟨_, rfl⟩
  rw [← hN]
  have hlen : (List.range' 0 N).length = N := List.length_range'
  refine ⟨?_, buildFile_found hmx hN hone hu, ?_⟩
  · rw [kept_neg]
    · rfl
    · rw [hlen]
      simp only [Bool.and_eq_true, decide_eq_true_eq]
      omega
  · have h := fun lg => buildFile_found (mn := mn) (hdr := fastFileHeader rank runs levelwise wsize)
      (make := makeFast B (K (if rank = 0 then 0 else 2)) lg pad junk runs) hmx hN hone hu
    rw [buildFast, buildFast]
    cases wordLg wsize with
    | none => rfl
    | some lg =>
      simp only
      rw [h lg]
      rfl

/-- With the bounds of scripts/build_tries.sh a trie of the numbers from 8192 to 16382 is written for that collection, which has no such list. -/
example : kept 4096 15000 ((List.range' 1 29).map fun k => List.range' (2 ^ k) (2 ^ k - 1)) = [List.range' 8192 8191] := by
  have h : ((List.range' 1 29).filter fun k => decide (4096 < 2 ^ k - 1) && decide (2 ^ k - 1 ≤ 15000)) = [13] := by decide +kernel
  have := kept_found 4096 15000
  rw [h] at this
  exact this

/-- C104 (partial), from the collection to the answers of `intersection_querylog_fastTrie`: kept lists of every length are answered about
correctly as far as the header announces their tries, sequentially. -/
theorem C104_fast_answers_partial (B : BvIO) (K : Nat → RankIO) {lg : Nat} (hlg : 3 ≤ lg ∧ lg ≤ 6) (pad : Nat) (junk junk' : Nat → FastJunk)
    (hj : ∀ i, (junk i).heightWithRuns < 2 ^ 16) {mn mx rank : Nat} (hr : rank < 2 ^ 32) (hr1 : rank ≠ 1) (runs levelwise : Bool)
    {one u : Nat} (hone : one < 2 ^ 32) (hu : 2 ^ (lg - 1) < u) (hu' : u < 2 ^ 32) {lists : List (List Nat)}
    (hl : ∀ l ∈ lists, l.length < 2 ^ 32) (hs : ∀ l ∈ lists, l ∉ kept mn mx lists → l.length < 2 ^ 30)
    (hv : ∀ l ∈ kept mn mx lists, ValidSet l u) (env : Nat → Env) (hw : ∀ i, (env i).hw ≠ 0) :
    ∃ n f rest, buildFast B K pad junk mn mx rank runs levelwise (2 ^ lg) (collectionBytes one u lists) = .ok (some f) ∧
      n < 2 ^ 32 ∧ f = fastFileHeader rank runs levelwise (2 ^ lg) ++ (leBytes 4 n ++ rest) ∧
      ∀ queries : List (List Nat), queries ≠ [] → (∀ q ∈ queries, q ≠ []) →
        (∀ q ∈ queries, ∀ i ∈ q, i < (kept mn mx lists).length ∧ i < n) →
        ∃ as, queryFast B K pad junk' false env queries f = .ok as ∧ List.Forall₂ (Answers (kept mn mx lists)) queries as := by
  obtain ⟨n, f, rest, -, h1, h2, h3, h4⟩ := queryFast_long B K hlg pad junk junk' hj hr hr1 runs levelwise hone hu hu' hl hs hv false env
    (P := IsIntersection) (fun sets Ts i h1 _ h3 h4 => by
      cases runs with
      | false => exact C09_fast_seq_intersect_plain hlg (h1.imp fun _ _ h => h.uncoded) h3 h4 (env i) (hw i)
      | true => exact C10_fast_seq_intersect_runs hlg (h1.imp fun _ _ h => h.toRuns) h3 h4 (env i) (hw i))
  exact ⟨n, f, rest, h1, h2, h3, h4⟩

/-- In contrast to `intersection_query_log` (`C104_count_negation`), `intersection_querylog_fastTrie` answers every query about the list of
the numbers below `2^30`, although its file announces 31 tries and has one. -/
theorem C104_fast_answers_long (B : BvIO) (K : Nat → RankIO) {lg : Nat} (hlg : 3 ≤ lg ∧ lg ≤ 6) (pad : Nat) (junk junk' : Nat → FastJunk)
    (hj : ∀ i, (junk i).heightWithRuns < 2 ^ 16) {mx rank : Nat} (hmx : 2 ^ 30 ≤ mx) (hr : rank < 2 ^ 32) (hr1 : rank ≠ 1)
    (runs levelwise : Bool) {one u : Nat} (hone : one < 2 ^ 32) (hu : 2 ^ 30 ≤ u) (hu' : u < 2 ^ 32)
    (env : Nat → Env) (hw : ∀ i, (env i).hw ≠ 0) {queries : List (List Nat)} (hq : queries ≠ [])
    (hq0 : ∀ q ∈ queries, q ≠ []) (hq1 : ∀ q ∈ queries, ∀ i ∈ q, i = 0) :
    ∃ f rest as, buildFast B K pad junk 0 mx rank runs levelwise (2 ^ lg) (collectionBytes one u [List.range' 0 (2 ^ 30)]) = .ok (some f) ∧
      f = fastFileHeader rank runs levelwise (2 ^ lg) ++ (leBytes 4 31 ++ rest) ∧
      queryFast B K pad junk' false env queries f = .ok as ∧ List.Forall₂ (Answers [List.range' 0 (2 ^ 30)]) queries as := by
  obtain ⟨N, hN⟩ : ∃ N, N = 2 ^ 30 := ⟨_, rfl⟩
  rw [← hN]
  have hk := kept_long hmx hN
  have hb : 2 ^ (lg - 1) < u := by
    have : 2 ^ (lg - 1) ≤ 2 ^ 5 := Nat.pow_le_pow_right (by omega) (by omega)
    omega
  have hlen : (List.range' 0 N).length = N := List.length_range'
  obtain ⟨n, f, rest, hc, h1, h2, h3, h4⟩ := queryFast_long B K hlg pad junk junk' hj hr hr1 runs levelwise hone hb hu' (mn := 0) (mx := mx)
    (lists := [List.range' 0 N])
    (fun l h => by rw [List.mem_singleton.1 h, hlen]; omega) (fun l h h' => absurd (by rw [hk]; exact h) h')
    (fun l h => by rw [hk] at h; rw [List.mem_singleton.1 h]; exact valid_long hN hu) false env
    (P := IsIntersection) (fun sets Ts i h1 _ h3 h4 => by
      cases runs with
      | false => exact C09_fast_seq_intersect_plain hlg (h1.imp fun _ _ h => h.uncoded) h3 h4 (env i) (hw i)
      | true => exact C10_fast_seq_intersect_runs hlg (h1.imp fun _ _ h => h.toRuns) h3 h4 (env i) (hw i))
  have hf : 40 < (([List.range' 0 N]).flatMap listBytes).length + 1 := by
    rw [List.flatMap_cons, List.flatMap_nil, List.append_nil, listBytes, List.length_append, length_leBytes, List.length_flatMap,
      List.map_congr_left (fun x _ => length_leBytes 4 x)]
    simp only [List.map_const', List.sum_replicate_nat, hlen]
    omega
  rw [countSets_long hmx hN hf] at hc
  injection hc with hc
  subst hc
  rw [hk] at h4
  obtain ⟨as, h5, h6⟩ := h4 queries hq hq0 (fun q hq i hi => by rw [hq1 q hq i hi]; exact ⟨by simp, by omega⟩)
  exact ⟨f, rest, as, h1, h3, h5, h6⟩

/-- The hypotheses of both theorems are met: the list of the numbers below `2^30` is asked for alone, and together with itself. -/
example : ∃ f rest as, buildFast Ex.bvIO (fun _ => Ex.rankIO) 0 (fun _ => Ex.junk) 0 (2 ^ 30) 0 true false 64
      (collectionBytes 1 (2 ^ 31) [List.range' 0 (2 ^ 30)]) = .ok (some f) ∧
    f = fastFileHeader 0 true false 64 ++ (leBytes 4 31 ++ rest) ∧
    queryFast Ex.bvIO (fun _ => Ex.rankIO) 0 (fun _ => Ex.junk) false (fun _ => ⟨8, [], []⟩) [[0], [0, 0]] f = .ok as ∧
    List.Forall₂ (Answers [List.range' 0 (2 ^ 30)]) [[0], [0, 0]] as :=
  C104_fast_answers_long Ex.bvIO (fun _ => Ex.rankIO) (lg := 6) ⟨by omega, by omega⟩ 0 (fun _ => Ex.junk) (fun _ => Ex.junk)
    (fun _ => by decide) (Nat.le_refl _) (by omega) (by omega) true false (by omega) (by omega) (by omega) _ (fun _ => by decide)
    (by simp) (by simp) (by simp)

/-- C104 (partial): if only the last list of a collection is long, and it is kept, the header of `build_fastTries` announces at least the
tries there are, and `intersection_querylog_fastTrie` answers every query about kept lists. -/
theorem C104_fast_last_partial (B : BvIO) (K : Nat → RankIO) {lg : Nat} (hlg : 3 ≤ lg ∧ lg ≤ 6) (pad : Nat) (junk junk' : Nat → FastJunk)
    (hj : ∀ i, (junk i).heightWithRuns < 2 ^ 16) {mn mx rank : Nat} (hr : rank < 2 ^ 32) (hr1 : rank ≠ 1) (runs levelwise : Bool)
    {one u : Nat} (hone : one < 2 ^ 32) (hu : 2 ^ (lg - 1) < u) (hu' : u < 2 ^ 32) {front : List (List Nat)} {l : List Nat}
    (hl : ∀ a ∈ front, a.length < 2 ^ 30) (hb : front.length + l.length + 1 < 2 ^ 32) (hk : mn < l.length ∧ l.length ≤ mx)
    (hv : ∀ a ∈ kept mn mx (front ++ [l]), ValidSet a u) (env : Nat → Env) (hw : ∀ i, (env i).hw ≠ 0)
    {queries : List (List Nat)} (hq : queries ≠ []) (hq0 : ∀ q ∈ queries, q ≠ [])
    (hq1 : ∀ q ∈ queries, ∀ i ∈ q, i < (kept mn mx (front ++ [l])).length) :
    ∃ n f rest as, buildFast B K pad junk mn mx rank runs levelwise (2 ^ lg) (collectionBytes one u (front ++ [l])) = .ok (some f) ∧
      f = fastFileHeader rank runs levelwise (2 ^ lg) ++ (leBytes 4 n ++ rest) ∧ (kept mn mx (front ++ [l])).length ≤ n ∧ n < 2 ^ 32 ∧
      queryFast B K pad junk' false env queries f = .ok as ∧ List.Forall₂ (Answers (kept mn mx (front ++ [l]))) queries as := by
  have hkl : l ∈ kept mn mx (front ++ [l]) := by
    rw [kept_append]
    refine List.mem_append_right _ ?_
    rw [kept_pos (by simpa using hk)]
    simp
  obtain ⟨n, f, rest, hc, h1, h2, h3, h4⟩ := queryFast_long B K hlg pad junk junk' hj hr hr1 runs levelwise hone hu hu' (mn := mn) (mx := mx)
    (lists := front ++ [l])
    (fun a h => by
      rcases List.mem_append.1 h with h | h
      · have := hl a h; omega
      · rw [List.mem_singleton.1 h]; omega)
    (fun a h h' => by
      rcases List.mem_append.1 h with h | h
      · exact hl a h
      · rw [List.mem_singleton.1 h] at h'; exact absurd hkl h') hv false env
    (P := IsIntersection) (fun sets Ts i h1 _ h3 h4 => by
      cases runs with
      | false => exact C09_fast_seq_intersect_plain hlg (h1.imp fun _ _ h => h.uncoded) h3 h4 (env i) (hw i)
      | true => exact C10_fast_seq_intersect_runs hlg (h1.imp fun _ _ h => h.toRuns) h3 h4 (env i) (hw i))
  have e : (front ++ [l]).flatMap listBytes = front.flatMap listBytes ++ listBytes l := by
    rw [List.flatMap_append, List.flatMap_cons, List.flatMap_nil, List.append_nil]
  rw [e] at hc
  have hn := countSets_last front _ 0 n hl (by omega) hc
  rw [Nat.zero_add] at hn
  obtain ⟨as, h5, h6⟩ := h4 queries hq hq0 (fun q hq i hi => ⟨hq1 q hq i hi, by have := hq1 q hq i hi; omega⟩)
  exact ⟨n, f, rest, as, h1, h3, hn, h2, h5, h6⟩

/-- Two short lists, one of them kept, before the list of the numbers below `2^30`. -/
example {N : Nat} (hN : N = 2 ^ 30) : (∀ a ∈ [[7], [3, 5]], a.length < 2 ^ 30) ∧ 2 + (List.range' 0 N).length + 1 < 2 ^ 32 ∧
    kept 1 (2 ^ 31) ([[7], [3, 5]] ++ [List.range' 0 N]) = [[3, 5], List.range' 0 N] ∧
    ∀ a ∈ [[3, 5], List.range' 0 N], ValidSet a (2 ^ 31) := by
  have hlen : (List.range' 0 N).length = N := List.length_range'
  refine ⟨by simp, by rw [hlen]; omega, ?_, fun a h => ?_⟩
  · rw [kept_append, kept_pos (ls := [])]
    · rfl
    · rw [hlen]; simp only [Bool.and_eq_true, decide_eq_true_eq]; omega
  · rcases List.mem_cons.1 h with rfl | h
    · exact ⟨by simp, by simp, by simp⟩
    · rw [List.mem_singleton.1 h]
      exact valid_long hN (by omega)

end CBT
