import Verif.Proof.DirtyLists
import Verif.Proof.DirtyQueries
import Verif.Props.Tools

/-!
# C107: collections whose lists are in any order

The builders hand every list they keep to a constructor as it stands in the collection (tools/build_tries.cpp:95-160,
tools/build_fastTries.cpp:86-120): nobody sorts it, removes repetitions or compares it with the universe. The theorems say which
file is written all the same, and what the query tools answer from it.
-/

namespace CBT

open Spec

theorem pow_height_le {u : Nat} (hu : u < 2 ^ 32) (hu2 : 2 ≤ u) : 2 ^ (Nat.log2 (u - 1) + 1) ≤ 2 ^ 32 := by
  have : Nat.log2 (u - 1) < 32 := (Nat.log2_lt (by omega)).2 (by omega)
  exact Nat.pow_le_pow_right (by decide) (by omega)

/-- C107, `build_tries`: the file is that of the collection in which every list that is kept is replaced by what is seen of it, a
strictly increasing list of numbers below the power of two. If the one cannot be built, the other fails in the same way. -/
theorem C107_tries_exact (F : Formats) (pad : Nat) (ltr : Bool) {mn mx rank block : Nat} (runs levelwise : Bool) {one u : Nat}
    (hone : one < 2 ^ 32) (hu : 3 ≤ u) (hu' : u < 2 ^ 32) {lists : List (List Nat)} (hl : ∀ l ∈ lists, l.length < 2 ^ 30)
    (hx : ∀ l ∈ kept mn mx lists, ∀ x ∈ l, x < 2 ^ 32) (hn : (kept mn mx lists).length < 2 ^ 32) :
    let h := Nat.log2 (u - 1) + 1
    let clean := (kept mn mx lists).map (seen 0 h)
    (∀ l ∈ clean, ValidSet l (2 ^ h)) ∧ kept 0 (2 ^ 32) clean = clean ∧
      buildTries F pad ltr mn mx rank block runs levelwise (collectionBytes one u lists) =
        buildTries F pad ltr 0 (2 ^ 32) rank block runs levelwise (collectionBytes one u clean) := by
  intro h clean
  have hk : ∀ l ∈ kept mn mx lists, l.length < 2 ^ 30 := fun l h => hl l (List.mem_filter.1 h).1
  have hV : ∀ l ∈ kept mn mx lists, ValidSet (seen 0 h l) (2 ^ h) := fun l hl => seen_valid (kept_ne_nil l hl)
  have hp : 2 ^ h ≤ 2 ^ 32 := pow_height_le hu' (by omega)
  obtain ⟨h1, h2⟩ := buildFile_map (hdr := triesFileHeader rank block runs levelwise)
    (make := makeTrie F pad ltr rank block runs levelwise) (g := seen 0 h) hone hu' hl hx hn fun l hl =>
      ⟨(hV l hl).ne, length_seen_le _ _, fun x hx => Nat.lt_of_lt_of_le ((hV l hl).below x hx) hp, fun j =>
        makeTrie_seen F pad ltr rank block runs levelwise j (kept_ne_nil l hl) (by have := hk l hl; omega) hu (by omega)⟩
  refine ⟨fun l hl => ?_, h1, h2.symm⟩
  obtain ⟨l', h', rfl⟩ := List.mem_map.1 hl
  exact hV l' h'

example : (kept 1 100 [[5, 2, 2, 9], [7], [1, 1, 5]]).map (seen 0 3) = [[5, 6, 7], [1, 5]] ∧
    buildTries Ex.formats 0 true 1 100 0 512 true false (collectionBytes 1 8 [[5, 2, 2, 9], [7], [1, 1, 5]]) =
      buildTries Ex.formats 0 true 0 (2 ^ 32) 0 512 true false (collectionBytes 1 8 [[5, 6, 7], [1, 5]]) := by decide +kernel

/-- C107, `build_fastTries`: likewise; in a word, the order does not matter. -/
theorem C107_fast_exact (B : BvIO) (K : Nat → RankIO) {lg : Nat} (hlg : 3 ≤ lg ∧ lg ≤ 6) (pad : Nat) (junk : Nat → FastJunk)
    {mn mx rank : Nat} (runs levelwise : Bool) {one u : Nat} (hone : one < 2 ^ 32) (hu : 2 ^ (lg - 1) < u) (hu' : u < 2 ^ 32)
    {lists : List (List Nat)} (hl : ∀ l ∈ lists, l.length < 2 ^ 30)
    (hx : ∀ l ∈ kept mn mx lists, ∀ x ∈ l, x < 2 ^ 32) (hn : (kept mn mx lists).length < 2 ^ 32) :
    let h := Nat.log2 (u - 1) + 1
    let clean := (kept mn mx lists).map (seen lg (h - lg))
    (∀ l ∈ clean, ValidSet l (2 ^ h)) ∧ kept 0 (2 ^ 32) clean = clean ∧
      buildFast B K pad junk mn mx rank runs levelwise (2 ^ lg) (collectionBytes one u lists) =
        buildFast B K pad junk 0 (2 ^ 32) rank runs levelwise (2 ^ lg) (collectionBytes one u clean) := by
  intro h clean
  obtain ⟨d0, d1, d2⟩ := fast_depth hlg hu (Nat.le_of_lt (Nat.lt_of_lt_of_le hu' (by decide)))
  have hk : ∀ l ∈ kept mn mx lists, l.length < 2 ^ 30 := fun l h => hl l (List.mem_filter.1 h).1
  have hV : ∀ l ∈ kept mn mx lists, ValidSet (seen lg (h - lg) l) (2 ^ h) := fun l hl => by
    have := seen_valid (w := lg) (d := h - lg) (kept_ne_nil l hl)
    rwa [← d1] at this
  have hp : 2 ^ h ≤ 2 ^ 32 := pow_height_le hu' d0
  obtain ⟨h1, h2⟩ := buildFile_map (hdr := fastFileHeader rank runs levelwise (2 ^ lg))
    (make := makeFast B (K (if rank = 0 then 0 else 2)) lg pad junk runs) (g := seen lg (h - lg)) hone hu' hl hx hn fun l hl =>
      ⟨(hV l hl).ne, length_seen_le _ _, fun x hx => Nat.lt_of_lt_of_le ((hV l hl).below x hx) hp, fun j =>
        makeFast_seen B _ hlg pad junk runs j (kept_ne_nil l hl) (by have := hk l hl; omega) hu (by omega)⟩
  refine ⟨fun l hl => ?_, h1, ?_⟩
  · obtain ⟨l', h', rfl⟩ := List.mem_map.1 hl
    exact hV l' h'
  · simp only [buildFast, (wordLg_pow hlg).1]
    rw [h2]

example : (kept 1 100 [[5, 2, 2, 9], [7], [12, 14, 3]]).map (seen 3 1) = [[2, 5, 9], [11, 12, 14]] ∧
    buildFast Ex.bvIO (fun _ => Ex.rankIO) 0 (fun _ => Ex.junk) 1 100 0 false false 8 (collectionBytes 1 16 [[5, 2, 2, 9], [7], [12, 14, 3]]) =
      buildFast Ex.bvIO (fun _ => Ex.rankIO) 0 (fun _ => Ex.junk) 0 (2 ^ 32) 0 false false 8
        (collectionBytes 1 16 [[2, 5, 9], [11, 12, 14]]) := by decide +kernel

/-- C107, what `intersection_query_log --parallel f` answers from such a file: the intersections of what is seen of the lists, which
need not be below the universe. -/
theorem C107_tries_answers_partial (F : Formats) (pad : Nat) {mn mx rank block : Nat} (hr : rank < 2 ^ 32) (hb : block < 2 ^ 32)
    (runs levelwise : Bool) (hs : Supported rank block levelwise) {one u : Nat} (hone : one < 2 ^ 32) (hu : 3 ≤ u) (hu' : u < 2 ^ 32)
    {lists : List (List Nat)} (hl : ∀ l ∈ lists, l.length < 2 ^ 30) (hx : ∀ l ∈ kept mn mx lists, ∀ x ∈ l, x < 2 ^ 32)
    (hn : (kept mn mx lists).length < 2 ^ 32) {clean : List (List Nat)}
    (hL : clean = (kept mn mx lists).map (seen 0 (Nat.log2 (u - 1) + 1)))
    (hc : runs = true → levelwise = false → ∀ l ∈ clean, ∃ x ∈ l, ∃ y, y / 4 = x / 4 ∧ y ∉ l)
    (env : Nat → Env) (hw : ∀ i, (env i).hw ≠ 0)
    {queries : List (List Nat)} (hq0 : ∀ q ∈ queries, q ≠ []) (hq1 : ∀ q ∈ queries, ∀ i ∈ q, i < (kept mn mx lists).length) :
    ∃ f as, buildTries F pad true mn mx rank block runs levelwise (collectionBytes one u lists) = .ok f ∧
      queryLog F pad false env queries f = .ok as ∧ List.Forall₂ (Answers clean) queries as :=
  queryLog_seen F pad hr hb hs hone hu hu' hl hx hn hL hc false env (P := IsIntersection)
    (fun sets Ts i h1 _ h3 h4 => by
      cases runs with
      | false => exact C07_seq_intersect_plain (h1.imp fun _ _ h => h.uncoded) h3 h4 (env i) (hw i)
      | true => exact C08_seq_intersect_runs_partial (h1.imp fun _ _ h => h.runs) h3 h4 (env i) (hw i)) hq0 hq1

example : (kept 1 100 [[5, 2, 2, 9], [1, 1, 5]]).map (seen 0 3) = [[5, 6, 7], [1, 5]] ∧
    (∀ l ∈ [[5, 6, 7], [1, 5]], ∃ x ∈ l, ∃ y < 8, y / 4 = x / 4 ∧ y ∉ l) ∧
    (buildTries Ex.formats 0 true 1 100 0 512 true false (collectionBytes 1 6 [[5, 2, 2, 9], [1, 1, 5]]) >>= fun f =>
      queryLog Ex.formats 0 false (fun _ => ⟨8, [], []⟩) [[0, 1], [0]] f) = .ok [some [5], some [5, 6, 7]] := by decide +kernel

/-- C107 in the default mode, `--parallel t`, without runs: likewise. -/
theorem C107_tries_parallel_plain_partial (F : Formats) (pad : Nat) {mn mx rank block : Nat} (hr : rank < 2 ^ 32) (hb : block < 2 ^ 32)
    (levelwise : Bool) (hs : Supported rank block levelwise) {one u : Nat} (hone : one < 2 ^ 32) (hu : 3 ≤ u) (hu' : u < 2 ^ 32)
    {lists : List (List Nat)} (hl : ∀ l ∈ lists, l.length < 2 ^ 30) (hx : ∀ l ∈ kept mn mx lists, ∀ x ∈ l, x < 2 ^ 32)
    (hn : (kept mn mx lists).length < 2 ^ 32) (env : Nat → Env) (hw : ∀ i, (env i).hw ≠ 0 ∧ (env i).hw < 2 ^ 16)
    {queries : List (List Nat)} (hq0 : ∀ q ∈ queries, q ≠ []) (hq1 : ∀ q ∈ queries, ∀ i ∈ q, i < (kept mn mx lists).length) :
    ∃ f as, buildTries F pad true mn mx rank block false levelwise (collectionBytes one u lists) = .ok f ∧
      queryLog F pad true env queries f = .ok as ∧
      List.Forall₂ (Answers ((kept mn mx lists).map (seen 0 (Nat.log2 (u - 1) + 1)))) queries as := by
  have hh : 2 ≤ trieHeight u := by
    have : 1 ≤ Nat.log2 (u - 1) := (Nat.le_log2 (by omega)).2 (by omega)
    rw [trieHeight]; omega
  exact queryLog_seen F pad (runs := false) hr hb hs hone hu hu' hl hx hn rfl (fun h => nomatch h) true env (P := IsIntersection)
    (fun sets Ts i h1 _ h3 h4 => by
      obtain ⟨R, e, -, e'⟩ := C11_parallel_plain hh (h1.imp fun _ _ h => h.uncoded) h3 h4 (env i) (env i) (hw i).1 (hw i).2 (hw i).1
      exact ⟨R, e, e'⟩) hq0 hq1

example : (buildTries Ex.formats 0 true 1 100 0 512 false true (collectionBytes 1 6 [[5, 2, 2, 9], [1, 1, 5]]) >>= fun f =>
      queryLog Ex.formats 0 true (fun _ => ⟨4, [1, 0, 2], [1]⟩) [[0, 1], [0]] f) = .ok [some [5], some [5, 6, 7]] := by decide +kernel

/-- C107 in the default mode with runs: no undefined behaviour, only numbers seen of all lists, none of them twice. -/
theorem C107_tries_parallel_runs_sound_partial (F : Formats) (pad : Nat) {mn mx rank block : Nat} (hr : rank < 2 ^ 32)
    (hb : block < 2 ^ 32) (levelwise : Bool) (hs : Supported rank block levelwise) {one u : Nat} (hone : one < 2 ^ 32) (hu : 3 ≤ u)
    (hu' : u < 2 ^ 32) {lists : List (List Nat)} (hl : ∀ l ∈ lists, l.length < 2 ^ 30)
    (hx : ∀ l ∈ kept mn mx lists, ∀ x ∈ l, x < 2 ^ 32) (hn : (kept mn mx lists).length < 2 ^ 32) {clean : List (List Nat)}
    (hL : clean = (kept mn mx lists).map (seen 0 (Nat.log2 (u - 1) + 1)))
    (hc : levelwise = false → ∀ l ∈ clean, ∃ x ∈ l, ∃ y, y / 4 = x / 4 ∧ y ∉ l)
    (env : Nat → Env) (hw : ∀ i, (env i).hw ≠ 0 ∧ (env i).hw < 2 ^ 16)
    {queries : List (List Nat)} (hq0 : ∀ q ∈ queries, q ≠ []) (hq1 : ∀ q ∈ queries, ∀ i ∈ q, i < (kept mn mx lists).length) :
    ∃ f as, buildTries F pad true mn mx rank block true levelwise (collectionBytes one u lists) = .ok f ∧
      queryLog F pad true env queries f = .ok as ∧
      List.Forall₂ (fun q a => (q.length ≤ 16 → ∃ R, a = some R ∧
        ((∀ x ∈ R, ∀ S ∈ q.map fun i => clean.getD i [], x ∈ S) ∧ R.Nodup)) ∧ (16 < q.length → a = none)) queries as := by
  have hh : 2 ≤ trieHeight u := by
    have : 1 ≤ Nat.log2 (u - 1) := (Nat.le_log2 (by omega)).2 (by omega)
    rw [trieHeight]; omega
  exact queryLog_seen F pad hr hb hs hone hu hu' hl hx hn hL (fun _ => hc) true env
    (P := fun sets R => (∀ x ∈ R, ∀ S ∈ sets, x ∈ S) ∧ R.Nodup)
    (fun sets Ts i h1 _ h3 h4 => C14_parallel_runs_sound hh (h1.imp fun _ _ h => h.runs) h3 h4 (env i) (hw i).1 (hw i).2) hq0 hq1

example : (kept 1 100 [[5, 2, 2, 9], [1, 1, 5]]).map (seen 0 3) = [[5, 6, 7], [1, 5]] ∧
    (buildTries Ex.formats 0 true 1 100 0 512 true true (collectionBytes 1 6 [[5, 2, 2, 9], [1, 1, 5]]) >>= fun f =>
      queryLog Ex.formats 0 true (fun _ => ⟨1, [], []⟩) [[0, 1]] f) = .ok [some [5]] := by decide +kernel

/-- C107, `intersection_querylog_fastTrie` with `--parallel f`: likewise. -/
theorem C107_fast_answers (B : BvIO) (K : Nat → RankIO) {lg : Nat} (hlg : 3 ≤ lg ∧ lg ≤ 6) (pad : Nat) (junk junk' : Nat → FastJunk)
    (hj : ∀ i, (junk i).heightWithRuns < 2 ^ 16) {mn mx rank : Nat} (hr : rank < 2 ^ 32) (hr1 : rank ≠ 1) (runs levelwise : Bool)
    {one u : Nat} (hone : one < 2 ^ 32) (hu : 2 ^ (lg - 1) < u) (hu' : u < 2 ^ 32) {lists : List (List Nat)}
    (hl : ∀ l ∈ lists, l.length < 2 ^ 30) (hx : ∀ l ∈ kept mn mx lists, ∀ x ∈ l, x < 2 ^ 32)
    (hn : (kept mn mx lists).length < 2 ^ 32) (env : Nat → Env) (hw : ∀ i, (env i).hw ≠ 0)
    {queries : List (List Nat)} (hq : queries ≠ []) (hq0 : ∀ q ∈ queries, q ≠ [])
    (hq1 : ∀ q ∈ queries, q.length ≤ 16 → ∀ i ∈ q, i < (kept mn mx lists).length) :
    ∃ f as, buildFast B K pad junk mn mx rank runs levelwise (2 ^ lg) (collectionBytes one u lists) = .ok (some f) ∧
      queryFast B K pad junk' false env queries f = .ok as ∧
      List.Forall₂ (Answers ((kept mn mx lists).map (seen lg (Nat.log2 (u - 1) + 1 - lg)))) queries as :=
  queryFast_seen B K hlg pad junk junk' hj hr hr1 runs levelwise hone hu hu' hl hx hn rfl false env (P := IsIntersection)
    (fun sets Ts i h1 _ h3 h4 => by
      cases runs with
      | false => exact C09_fast_seq_intersect_plain hlg (h1.imp fun _ _ h => h.uncoded) h3 h4 (env i) (hw i)
      | true => exact C10_fast_seq_intersect_runs hlg (h1.imp fun _ _ h => h.toRuns) h3 h4 (env i) (hw i)) hq hq0 hq1

example : (kept 1 100 [[5, 2, 2, 9], [12, 14, 3]]).map (seen 3 1) = [[2, 5, 9], [11, 12, 14]] ∧
    (buildFast Ex.bvIO (fun _ => Ex.rankIO) 0 (fun _ => Ex.junk) 1 100 0 true false 8 (collectionBytes 1 10 [[5, 2, 2, 9], [12, 14, 3]]) >>=
      fun f => queryFast Ex.bvIO (fun _ => Ex.rankIO) 0 (fun _ => Ex.junk) false (fun _ => ⟨8, [], []⟩) [[0], [1], [0, 1]] (f.getD [])) =
        .ok [some [2, 5, 9], some [11, 12, 14], some []] := by decide +kernel

/-- C107 with `--parallel t`, on files of fast tries without runs that have at least two levels of nodes: likewise. -/
theorem C107_fast_parallel_plain (B : BvIO) (K : Nat → RankIO) {lg : Nat} (hlg : 3 ≤ lg ∧ lg ≤ 6) (pad : Nat)
    (junk junk' : Nat → FastJunk) (hj : ∀ i, (junk i).heightWithRuns < 2 ^ 16) {mn mx rank : Nat} (hr : rank < 2 ^ 32) (hr1 : rank ≠ 1)
    (levelwise : Bool) {one u : Nat} (hone : one < 2 ^ 32) (hu : 2 ^ lg < u) (hu' : u < 2 ^ 32) {lists : List (List Nat)}
    (hl : ∀ l ∈ lists, l.length < 2 ^ 30) (hx : ∀ l ∈ kept mn mx lists, ∀ x ∈ l, x < 2 ^ 32)
    (hn : (kept mn mx lists).length < 2 ^ 32) (env : Nat → Env) (hw : ∀ i, (env i).hw ≠ 0 ∧ (env i).hw < 2 ^ 16)
    {queries : List (List Nat)} (hq : queries ≠ []) (hq0 : ∀ q ∈ queries, q ≠ [])
    (hq1 : ∀ q ∈ queries, q.length ≤ 16 → ∀ i ∈ q, i < (kept mn mx lists).length) :
    ∃ f as, buildFast B K pad junk mn mx rank false levelwise (2 ^ lg) (collectionBytes one u lists) = .ok (some f) ∧
      queryFast B K pad junk' true env queries f = .ok as ∧
      List.Forall₂ (Answers ((kept mn mx lists).map (seen lg (Nat.log2 (u - 1) + 1 - lg)))) queries as := by
  have hlu : 2 ^ (lg - 1) < u := Nat.lt_of_le_of_lt (Nat.pow_le_pow_right (by decide) (by omega)) hu
  have hh : 2 ≤ fastHeight lg u := by
    have : lg ≤ Nat.log2 (u - 1) := (Nat.le_log2 (Nat.sub_ne_zero_of_lt (by have := Nat.two_pow_pos lg; omega))).2 (Nat.le_sub_one_of_lt hu)
    rw [fastHeight]; omega
  exact queryFast_seen B K hlg pad junk junk' hj hr hr1 false levelwise hone hlu hu' hl hx hn rfl true env (P := IsIntersection)
    (fun sets Ts i h1 _ h3 h4 => by
      obtain ⟨R, e, -, e'⟩ := C13_fast_parallel_plain hlg hh (h1.imp fun _ _ h => h.uncoded) h3 h4 (env i) (env i) (hw i).1 (hw i).2 (hw i).1
      exact ⟨R, e, e'⟩) hq hq0 hq1

example : (buildFast Ex.bvIO (fun _ => Ex.rankIO) 0 (fun _ => Ex.junk) 1 100 0 false false 8 (collectionBytes 1 10 [[5, 2, 2, 9], [12, 14, 3]]) >>=
      fun f => queryFast Ex.bvIO (fun _ => Ex.rankIO) 0 (fun _ => Ex.junk) true (fun _ => ⟨4, [1, 0, 2], [1]⟩) [[0], [1], [0, 1]] (f.getD [])) =
        .ok [some [2, 5, 9], some [11, 12, 14], some []] := by decide +kernel

/-- C107, parallel queries on files of fast tries with runs: no undefined behaviour, only numbers seen of all lists, none of them
twice. -/
theorem C107_fast_parallel_runs_sound (B : BvIO) (K : Nat → RankIO) {lg : Nat} (hlg : 3 ≤ lg ∧ lg ≤ 6) (pad : Nat)
    (junk junk' : Nat → FastJunk) (hj : ∀ i, (junk i).heightWithRuns < 2 ^ 16) {mn mx rank : Nat} (hr : rank < 2 ^ 32) (hr1 : rank ≠ 1)
    (levelwise : Bool) {one u : Nat} (hone : one < 2 ^ 32) (hu : 2 ^ lg < u) (hu' : u < 2 ^ 32) {lists : List (List Nat)}
    (hl : ∀ l ∈ lists, l.length < 2 ^ 30) (hx : ∀ l ∈ kept mn mx lists, ∀ x ∈ l, x < 2 ^ 32)
    (hn : (kept mn mx lists).length < 2 ^ 32) {clean : List (List Nat)}
    (hL : clean = (kept mn mx lists).map (seen lg (Nat.log2 (u - 1) + 1 - lg)))
    (env : Nat → Env) (hw : ∀ i, (env i).hw ≠ 0 ∧ (env i).hw < 2 ^ 16)
    {queries : List (List Nat)} (hq : queries ≠ []) (hq0 : ∀ q ∈ queries, q ≠ [])
    (hq1 : ∀ q ∈ queries, q.length ≤ 16 → ∀ i ∈ q, i < (kept mn mx lists).length) :
    ∃ f as, buildFast B K pad junk mn mx rank true levelwise (2 ^ lg) (collectionBytes one u lists) = .ok (some f) ∧
      queryFast B K pad junk' true env queries f = .ok as ∧
      List.Forall₂ (fun q a => (q.length ≤ 16 → ∃ R, a = some R ∧
        ((∀ x ∈ R, ∀ S ∈ q.map fun i => clean.getD i [], x ∈ S) ∧ R.Nodup)) ∧ (16 < q.length → a = none)) queries as := by
  have hlu : 2 ^ (lg - 1) < u := Nat.lt_of_le_of_lt (Nat.pow_le_pow_right (by decide) (by omega)) hu
  have hh : 2 ≤ fastHeight lg u := by
    have : lg ≤ Nat.log2 (u - 1) := (Nat.le_log2 (Nat.sub_ne_zero_of_lt (by have := Nat.two_pow_pos lg; omega))).2 (Nat.le_sub_one_of_lt hu)
    rw [fastHeight]; omega
  exact queryFast_seen B K hlg pad junk junk' hj hr hr1 true levelwise hone hlu hu' hl hx hn hL true env
    (P := fun sets R => (∀ x ∈ R, ∀ S ∈ sets, x ∈ S) ∧ R.Nodup)
    (fun sets Ts i h1 _ h3 h4 => C14_fast_parallel_runs_sound hlg hh (h1.imp fun _ _ h => h.toRuns) h3 h4 (env i) (hw i).1 (hw i).2) hq hq0 hq1

example : (kept 1 100 [[5, 2, 2, 9], [12, 14, 3]]).map (seen 3 1) = [[2, 5, 9], [11, 12, 14]] ∧
    (buildFast Ex.bvIO (fun _ => Ex.rankIO) 0 (fun _ => Ex.junk) 1 100 0 true false 8 (collectionBytes 1 10 [[5, 2, 2, 9], [12, 14, 3]]) >>=
      fun f => queryFast Ex.bvIO (fun _ => Ex.rankIO) 0 (fun _ => Ex.junk) true (fun _ => ⟨4, [1, 0, 2], [1]⟩) [[0], [1]] (f.getD [])) =
        .ok [some [2, 5, 9], some [11, 12, 14]] := by decide +kernel

/-- C107, lists in order with repetitions: `intersection_query_log` answers with the intersections of the lists themselves. -/
theorem C107_tries_repeated_partial (F : Formats) (pad : Nat) {mn mx rank block : Nat} (hr : rank < 2 ^ 32) (hb : block < 2 ^ 32)
    (runs levelwise : Bool) (hs : Supported rank block levelwise) {one u : Nat} (hone : one < 2 ^ 32) (hu : 3 ≤ u) (hu' : u < 2 ^ 32)
    {lists : List (List Nat)} (hl : ∀ l ∈ lists, l.length < 2 ^ 30) (ho : ∀ l ∈ kept mn mx lists, l.Pairwise (· ≤ ·))
    (hx : ∀ l ∈ kept mn mx lists, ∀ x ∈ l, x < u) (hn : (kept mn mx lists).length < 2 ^ 32)
    (hc : runs = true → levelwise = false → ∀ l ∈ kept mn mx lists, ∃ x ∈ l, ∃ y, y / 4 = x / 4 ∧ y ∉ l)
    (env : Nat → Env) (hw : ∀ i, (env i).hw ≠ 0)
    {queries : List (List Nat)} (hq0 : ∀ q ∈ queries, q ≠ []) (hq1 : ∀ q ∈ queries, ∀ i ∈ q, i < (kept mn mx lists).length) :
    ∃ f as, buildTries F pad true mn mx rank block runs levelwise (collectionBytes one u lists) = .ok f ∧
      queryLog F pad false env queries f = .ok as ∧ List.Forall₂ (Answers (kept mn mx lists)) queries as := by
  have hm : ∀ l ∈ kept mn mx lists, ∀ x, x ∈ seen 0 (Nat.log2 (u - 1) + 1) l ↔ x ∈ l := fun l hl x =>
    mem_seen_of_inOrder (w := 0) ((ho l hl).imp fun h => by simpa using h) (fun x h => lt_height (hx l hl x h)) x
  obtain ⟨f, as, h1, h2, h3⟩ := C107_tries_answers_partial F pad hr hb runs levelwise hs hone hu hu' hl
    (fun l hl x h => Nat.lt_trans (hx l hl x h) hu') hn rfl
    (fun a b l' hl' => by
      obtain ⟨l, hl, rfl⟩ := List.mem_map.1 hl'
      obtain ⟨x, e1, y, e2, e3⟩ := hc a b l hl
      exact ⟨x, (hm l hl x).2 e1, y, e2, fun h => e3 ((hm l hl y).1 h)⟩) env hw hq0 hq1
  refine ⟨f, as, h1, h2, ?_⟩
  rw [List.forall₂_iff_zip] at h3 ⊢
  refine ⟨h3.1, fun {a b} h => answers_map hm (fun _ => hq1 a (List.of_mem_zip h).1) (h3.2 h)⟩

example : (∀ l ∈ kept 1 100 [[1, 1, 5, 6], [3], [1, 6, 6]], l.Pairwise (· ≤ ·)) ∧
    (buildTries Ex.formats 0 true 1 100 2 512 true true (collectionBytes 1 8 [[1, 1, 5, 6], [3], [1, 6, 6]]) >>= fun f =>
      queryLog Ex.formats 0 false (fun _ => ⟨8, [], []⟩) [[0, 1], [0]] f) = .ok [some [1, 6], some [1, 5, 6]] := by decide +kernel

/-- C107, lists whose words come in order: `intersection_querylog_fastTrie` answers with the intersections of the lists
themselves. -/
theorem C107_fast_repeated (B : BvIO) (K : Nat → RankIO) {lg : Nat} (hlg : 3 ≤ lg ∧ lg ≤ 6) (pad : Nat) (junk junk' : Nat → FastJunk)
    (hj : ∀ i, (junk i).heightWithRuns < 2 ^ 16) {mn mx rank : Nat} (hr : rank < 2 ^ 32) (hr1 : rank ≠ 1) (runs levelwise : Bool)
    {one u : Nat} (hone : one < 2 ^ 32) (hu : 2 ^ (lg - 1) < u) (hu' : u < 2 ^ 32) {lists : List (List Nat)}
    (hl : ∀ l ∈ lists, l.length < 2 ^ 30) (ho : ∀ l ∈ kept mn mx lists, l.Pairwise fun x y => x / 2 ^ lg ≤ y / 2 ^ lg)
    (hx : ∀ l ∈ kept mn mx lists, ∀ x ∈ l, x < u) (hn : (kept mn mx lists).length < 2 ^ 32)
    (env : Nat → Env) (hw : ∀ i, (env i).hw ≠ 0)
    {queries : List (List Nat)} (hq : queries ≠ []) (hq0 : ∀ q ∈ queries, q ≠ [])
    (hq1 : ∀ q ∈ queries, q.length ≤ 16 → ∀ i ∈ q, i < (kept mn mx lists).length) :
    ∃ f as, buildFast B K pad junk mn mx rank runs levelwise (2 ^ lg) (collectionBytes one u lists) = .ok (some f) ∧
      queryFast B K pad junk' false env queries f = .ok as ∧ List.Forall₂ (Answers (kept mn mx lists)) queries as := by
  obtain ⟨-, d1, -⟩ := fast_depth hlg hu (Nat.le_of_lt (Nat.lt_of_lt_of_le hu' (by decide)))
  have hm : ∀ l ∈ kept mn mx lists, ∀ x, x ∈ seen lg (Nat.log2 (u - 1) + 1 - lg) l ↔ x ∈ l := fun l hl x =>
    mem_seen_of_inOrder (ho l hl) (fun x h => d1 ▸ lt_height (hx l hl x h)) x
  obtain ⟨f, as, h1, h2, h3⟩ := C107_fast_answers B K hlg pad junk junk' hj hr hr1 runs levelwise hone hu hu' hl
    (fun l hl x h => Nat.lt_trans (hx l hl x h) hu') hn env hw hq hq0 hq1
  refine ⟨f, as, h1, h2, ?_⟩
  rw [List.forall₂_iff_zip] at h3 ⊢
  exact ⟨h3.1, fun {a b} h => answers_map hm (hq1 a (List.of_mem_zip h).1) (h3.2 h)⟩

example : (∀ l ∈ kept 1 100 [[5, 2, 2, 9], [4], [2, 14, 9]], l.Pairwise fun x y => x / 2 ^ 3 ≤ y / 2 ^ 3) ∧
    (buildFast Ex.bvIO (fun _ => Ex.rankIO) 0 (fun _ => Ex.junk) 1 100 0 true false 8 (collectionBytes 1 16 [[5, 2, 2, 9], [4], [2, 14, 9]]) >>=
      fun f => queryFast Ex.bvIO (fun _ => Ex.rankIO) 0 (fun _ => Ex.junk) false (fun _ => ⟨8, [], []⟩) [[0, 1], [0]] (f.getD [])) =
        .ok [some [2, 9], some [2, 5, 9]] := by decide +kernel

/-- C107, exactly when the answer is right: asked for one list without repetitions, `intersection_query_log` answers with its
elements exactly if the list is increasing and below the power of two. -/
theorem C107_tries_right_iff_partial (F : Formats) (pad : Nat) {mn mx rank block : Nat} (hr : rank < 2 ^ 32) (hb : block < 2 ^ 32)
    (runs levelwise : Bool) (hs : Supported rank block levelwise) {one u : Nat} (hone : one < 2 ^ 32) (hu : 3 ≤ u) (hu' : u < 2 ^ 32)
    {lists : List (List Nat)} (hl : ∀ l ∈ lists, l.length < 2 ^ 30) (hx : ∀ l ∈ kept mn mx lists, ∀ x ∈ l, x < 2 ^ 32)
    (hn : (kept mn mx lists).length < 2 ^ 32)
    (hc : runs = true → levelwise = false → ∀ l ∈ (kept mn mx lists).map (seen 0 (Nat.log2 (u - 1) + 1)),
      ∃ x ∈ l, ∃ y, y / 4 = x / 4 ∧ y ∉ l)
    (env : Nat → Env) (hw : ∀ i, (env i).hw ≠ 0) {i : Nat} (hi : i < (kept mn mx lists).length) (hnd : (kept mn mx lists)[i].Nodup) :
    ∃ f a, buildTries F pad true mn mx rank block runs levelwise (collectionBytes one u lists) = .ok f ∧
      queryLog F pad false env [[i]] f = .ok [a] ∧
      (Answers (kept mn mx lists) [i] a ↔
        (kept mn mx lists)[i].Pairwise (· < ·) ∧ ∀ x ∈ (kept mn mx lists)[i], x < 2 ^ (Nat.log2 (u - 1) + 1)) := by
  obtain ⟨f, as, h1, h2, h3⟩ := C107_tries_answers_partial F pad hr hb runs levelwise hs hone hu hu' hl hx hn rfl hc env hw
    (queries := [[i]]) (by simp) (by simpa using hi)
  obtain _ | ⟨hA, hN⟩ := h3
  cases hN
  refine ⟨f, _, h1, h2, (answers_seen_iff hi hA).trans ((mem_seen_iff (w := 0) (d := Nat.log2 (u - 1) + 1) hnd).trans ?_)⟩
  have ho : InOrder 0 (kept mn mx lists)[i] ↔ (kept mn mx lists)[i].Pairwise (· < ·) := by
    simp only [InOrder, Nat.pow_zero, Nat.div_one]
    exact ⟨fun h => (h.and hnd).imp fun h => by omega, fun h => h.imp fun h => by omega⟩
  rw [ho]

example : (kept 1 100 [[1, 7], [1, 3], [3, 1]])[0].Nodup ∧
    (buildTries Ex.formats 0 true 1 100 0 512 false false (collectionBytes 1 6 [[1, 7], [1, 3], [3, 1]]) >>= fun f =>
      queryLog Ex.formats 0 false (fun _ => ⟨8, [], []⟩) [[0], [1], [2]] f) = .ok [some [1, 7], some [1, 3], some [3]] := by decide +kernel

/-- C107 for fast tries, exactly when the answer is right: the words of the list come in order and are below the power of two. -/
theorem C107_fast_right_iff (B : BvIO) (K : Nat → RankIO) {lg : Nat} (hlg : 3 ≤ lg ∧ lg ≤ 6) (pad : Nat) (junk junk' : Nat → FastJunk)
    (hj : ∀ i, (junk i).heightWithRuns < 2 ^ 16) {mn mx rank : Nat} (hr : rank < 2 ^ 32) (hr1 : rank ≠ 1) (runs levelwise : Bool)
    {one u : Nat} (hone : one < 2 ^ 32) (hu : 2 ^ (lg - 1) < u) (hu' : u < 2 ^ 32) {lists : List (List Nat)}
    (hl : ∀ l ∈ lists, l.length < 2 ^ 30) (hx : ∀ l ∈ kept mn mx lists, ∀ x ∈ l, x < 2 ^ 32)
    (hn : (kept mn mx lists).length < 2 ^ 32) (env : Nat → Env) (hw : ∀ i, (env i).hw ≠ 0)
    {i : Nat} (hi : i < (kept mn mx lists).length) (hnd : (kept mn mx lists)[i].Nodup) :
    ∃ f a, buildFast B K pad junk mn mx rank runs levelwise (2 ^ lg) (collectionBytes one u lists) = .ok (some f) ∧
      queryFast B K pad junk' false env [[i]] f = .ok [a] ∧
      (Answers (kept mn mx lists) [i] a ↔
        ((kept mn mx lists)[i].Pairwise fun x y => x / 2 ^ lg ≤ y / 2 ^ lg) ∧
          ∀ x ∈ (kept mn mx lists)[i], x < 2 ^ (Nat.log2 (u - 1) + 1)) := by
  obtain ⟨-, d1, -⟩ := fast_depth hlg hu (Nat.le_of_lt (Nat.lt_of_lt_of_le hu' (by decide)))
  obtain ⟨f, as, h1, h2, h3⟩ := C107_fast_answers B K hlg pad junk junk' hj hr hr1 runs levelwise hone hu hu' hl hx hn env hw
    (queries := [[i]]) (by simp) (by simp) (by simpa using hi)
  obtain _ | ⟨hA, hN⟩ := h3
  cases hN
  refine ⟨f, _, h1, h2, (answers_seen_iff hi hA).trans ?_⟩
  have := mem_seen_iff (w := lg) (d := Nat.log2 (u - 1) + 1 - lg) hnd
  rw [← d1] at this
  exact this

example : (kept 1 100 [[5, 2, 9], [9, 2]])[0].Nodup ∧
    (buildFast Ex.bvIO (fun _ => Ex.rankIO) 0 (fun _ => Ex.junk) 1 100 0 true false 8 (collectionBytes 1 10 [[5, 2, 9], [9, 2]]) >>=
      fun f => queryFast Ex.bvIO (fun _ => Ex.rankIO) 0 (fun _ => Ex.junk) false (fun _ => ⟨8, [], []⟩) [[0], [1]] (f.getD [])) =
        .ok [some [2, 5, 9], some [9, 10]] := by decide +kernel

/-- C107 is false for lists that are not in order: of `2, 1` below 4 a file is built without complaint, and the answer to the query
for this list alone is `2, 3`; an element is missing and another is invented. -/
theorem C107_tries_order_negation :
    (buildTries Ex.formats 0 true 1 100 0 512 false false (collectionBytes 1 4 [[2, 1]]) >>= fun f =>
      queryLog Ex.formats 0 false (fun _ => ⟨8, [], []⟩) [[0]] f) = .ok [some [2, 3]] ∧
    ¬ List.Forall₂ (Answers (kept 1 100 [[2, 1]])) [[0]] [some [2, 3]] := by
  refine ⟨by decide +kernel, fun h => ?_⟩
  cases h with
  | cons h _ =>
    obtain ⟨R, e, h⟩ := h.1 (by decide)
    injection e with e; subst e
    exact absurd ((h.mem 1).2 (by decide +kernel)) (by decide)

/-- C107 is false for lists in order that go beyond the universe, too: of `1, 9` below 8, the answer is `1` alone. -/
theorem C107_tries_universe_negation :
    (buildTries Ex.formats 0 true 1 100 0 512 false false (collectionBytes 1 8 [[1, 9]]) >>= fun f =>
      queryLog Ex.formats 0 false (fun _ => ⟨8, [], []⟩) [[0]] f) = .ok [some [1]] ∧
    ¬ List.Forall₂ (Answers (kept 1 100 [[1, 9]])) [[0]] [some [1]] := by
  refine ⟨by decide +kernel, fun h => ?_⟩
  cases h with
  | cons h _ =>
    obtain ⟨R, e, h⟩ := h.1 (by decide)
    injection e with e; subst e
    exact absurd ((h.mem 9).2 (by decide +kernel)) (by decide)

/-- C107 is false for fast tries with words of 8 numbers if the words are not in order: of `12, 3` below 16, the answer is `11, 12`. -/
theorem C107_fast_order_negation :
    (buildFast Ex.bvIO (fun _ => Ex.rankIO) 0 (fun _ => Ex.junk) 1 100 0 false false 8 (collectionBytes 1 16 [[12, 3]]) >>= fun f =>
      queryFast Ex.bvIO (fun _ => Ex.rankIO) 0 (fun _ => Ex.junk) false (fun _ => ⟨8, [], []⟩) [[0]] (f.getD [])) =
        .ok [some [11, 12]] ∧
    ¬ List.Forall₂ (Answers (kept 1 100 [[12, 3]])) [[0]] [some [11, 12]] := by
  refine ⟨by decide +kernel, fun h => ?_⟩
  cases h with
  | cons h _ =>
    obtain ⟨R, e, h⟩ := h.1 (by decide)
    injection e with e; subst e
    exact absurd ((h.mem 3).2 (by decide +kernel)) (by decide)

end CBT
