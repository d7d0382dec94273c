import Verif.SpecScripts
import Verif.Props.ShortLists
import Verif.Props.Many

/-!
# C95: the answers of the experiment scripts

`scripts/build_tries.sh` and `scripts/build_fastTries.sh` build files from the same collections of lists with 4096 to 15000 elements, and
`scripts/run_*.sh` run the same query logs on both.
-/

namespace CBT

open Spec

theorem not_someQuery_stumbles {pad t : Nat} {th : Option Nat} {lists queries : List (List Nat)}
    (h : ∀ l ∈ lists, onlyFours l = false) (hq : ∀ q ∈ queries, ∀ i ∈ q, i < lists.length) : ¬ someQuery (stumbles pad t th) lists queries := by
  rintro ⟨q, hqm, -, S, hS, j, k, hu, -⟩
  obtain ⟨i, hi, rfl⟩ := List.mem_map.1 hS
  have hi' := hq q hqm i hi
  have := h (lists.getD i []) (by rw [List.getD_eq_getElem _ _ hi']; exact List.getElem_mem hi')
  exact absurd (hu.1.symm.trans this) (by simp)

/-- C95 (partial), `build_tries`: the scripts' answers are right for the lists with more than 4096 elements, numbered without the others. With
runs, no list may consist of full blocks of four numbers only (C04), and with runs and parallelism the universe must be large compared with
the number of hardware threads (C92). -/
theorem C95_tries_script_partial (F : Formats) (pad : Nat) {hw : Nat} (hw0 : hw ≠ 0) (hw1 : hw < 2 ^ 16) (env : Nat → Env)
    (he : ∀ i, (env i).hw = hw) {rank : List Str} (hrank : rank ∈ scriptRanks) (runs parallel : Bool)
    {one u : Nat} (hone : one < 2 ^ 32) (hu : 4096 ≤ u) (hu' : u < 2 ^ 32) {lists : List (List Nat)}
    (hl : ∀ l ∈ lists, l.length < 2 ^ 30) (hv : ∀ l ∈ kept 4096 15000 lists, ValidSet l u) (hn : (kept 4096 15000 lists).length < 2 ^ 31)
    {fs : Files} {prog prog' input out log : Str} (hout : out ≠ []) (hout' : plainName out) (hout3 : out ≠ "--levelwise".toList)
    (hout4 : out ≠ "--wsize".toList) (hlog : plainName log) (hio : out ≠ input) (hin : fs input = some (collectionBytes one u lists))
    {text : Str} {queries : List (List Nat)} (ht : LogText text queries) (hq0 : ∀ q ∈ queries, q ≠ [])
    (hq1 : ∀ q ∈ queries, ∀ i ∈ q, i < (kept 4096 15000 lists).length)
    (hpar : runs = true → parallel = true → Nat.log2 hw + 14 ≤ trieHeight u)
    (hflat : runs = true → ∀ l ∈ kept 4096 15000 lists, onlyFours l = false) :
    ∃ f, mainBuildTries F pad true fs (scriptBuild prog input rank runs out) = .ok (some (out, f)) ∧
      ∀ (fs' : Files) (texts : Str → Option Str), fs' out = some f → texts log = some text →
        ∃ as, mainQueryLog F pad env fs' texts (scriptQueries prog' out log parallel) = .ok (.done as none) ∧
          List.Forall₂ (Answers (kept 4096 15000 lists)) queries as := by
  obtain ⟨r, rk, bl, hr, hrok, hap, hsup⟩ : ∃ (r : BuildOption) (rk bl : Nat), r.words false = "--rank".toList :: rank ∧ r.Ok false ∧
      r.apply ⟨4096, 15000, 0, 512, false, false, 64, false, []⟩ = ⟨4096, 15000, rk, bl, false, false, 64, false, []⟩ ∧
      Supported rk bl false := by
    simp only [scriptRanks, List.mem_cons, List.not_mem_nil, or_false] at hrank
    rcases hrank with rfl | rfl | rfl
    · exact ⟨.rankV, _, _, rfl, trivial, rfl, by decide⟩
    · exact ⟨.rankV5, _, _, rfl, trivial, rfl, by decide⟩
    · exact ⟨.rankIl 512, _, _, rfl, (by decide : (512 : Nat) < 2 ^ 31), rfl, by decide⟩
  have hfold : [BuildOption.minSize 4096, .maxSize 15000, r, .runs runs, .out out].foldl BuildOption.apply .default =
      ⟨4096, 15000, rk, bl, runs, false, 64, false, out⟩ := by
    have e : [BuildOption.minSize 4096, .maxSize 15000].foldl BuildOption.apply .default =
      ⟨4096, 15000, 0, 512, false, false, 64, false, []⟩ := rfl
    rw [show [BuildOption.minSize 4096, .maxSize 15000, r, .runs runs, .out out] =
      [BuildOption.minSize 4096, .maxSize 15000] ++ [r, .runs runs, .out out] from rfl, List.foldl_append, e, List.foldl_cons, hap]
    rfl
  obtain ⟨f, h1, h2⟩ := C92_tries_session_lengths F pad hw0 hw1 env he
    (opts := [.minSize 4096, .maxSize 15000, r, .runs runs, .out out]) (o := ⟨4096, 15000, rk, bl, runs, false, 64, false, out⟩)
    (by
      intro o ho
      simp only [List.mem_cons, List.not_mem_nil, or_false] at ho
      rcases ho with rfl | rfl | rfl | rfl | rfl
      · exact (by decide : (4096 : Nat) < 2 ^ 64)
      · exact (by decide : (15000 : Nat) < 2 ^ 64)
      · exact hrok
      · exact trivial
      · exact ⟨hout3, hout4, hout'.2.1⟩)
    hfold.symm hout hsup hone (by omega) hu' hl hv (by simp only; omega) (prog := prog) hio hin
    (qopts := [.parallel parallel]) (prog' := prog') (log := log)
    (by
      intro o ho
      simp only [List.mem_cons, List.not_mem_nil, or_false] at ho
      rcases ho with rfl | rfl | rfl
      · exact hout'
      · exact hlog
      · exact trivial)
    rfl ht hq0 (fun q hq i hi => ⟨hq1 q hq i hi, Nat.lt_trans (hq1 q hq i hi) hn⟩)
    (fun hr hp l hl => by
      have h3 := kept_length_lt (b := 2 ^ 14) (by simp only; decide) l hl
      exact Nat.lt_of_lt_of_le h3 (Nat.pow_le_pow_right (by decide) (by have := hpar hr hp; omega)))
    (fun hr _ => not_someQuery_stumbles (hflat hr) hq1)
  refine ⟨f, ?_, fun fs' texts hf ht => ?_⟩
  · rw [← h1]
    simp only [List.flatMap_cons, hr, List.flatMap_nil]
    congr 1
  · obtain ⟨as, rows, h3, h4, -⟩ := h2 fs' texts hf ht
    exact ⟨as, h3, h4⟩

theorem kept_all {mn mx : Nat} {lists : List (List Nat)} (h : ∀ l ∈ lists, mn < l.length ∧ l.length ≤ mx) : kept mn mx lists = lists :=
  List.filter_eq_self.2 fun l hl => by simp [h l hl]

/-- C95 (partial), `build_tries`, if all lists have more than 4096 and at most 15000 elements: the numbers in the log are positions in the
collection. -/
theorem C95_tries_positions_partial (F : Formats) (pad : Nat) {hw : Nat} (hw0 : hw ≠ 0) (hw1 : hw < 2 ^ 16) (env : Nat → Env)
    (he : ∀ i, (env i).hw = hw) {rank : List Str} (hrank : rank ∈ scriptRanks) (runs parallel : Bool)
    {one u : Nat} (hone : one < 2 ^ 32) (hu : 4096 ≤ u) (hu' : u < 2 ^ 32) {lists : List (List Nat)}
    (hl : ∀ l ∈ lists, ValidSet l u ∧ 4096 < l.length ∧ l.length ≤ 15000) (hn : lists.length < 2 ^ 31)
    {fs : Files} {prog prog' input out log : Str} (hout : out ≠ []) (hout' : plainName out) (hout3 : out ≠ "--levelwise".toList)
    (hout4 : out ≠ "--wsize".toList) (hlog : plainName log) (hio : out ≠ input) (hin : fs input = some (collectionBytes one u lists))
    {text : Str} {queries : List (List Nat)} (ht : LogText text queries) (hq0 : ∀ q ∈ queries, q ≠ [])
    (hq1 : ∀ q ∈ queries, ∀ i ∈ q, i < lists.length)
    (hpar : runs = true → parallel = true → Nat.log2 hw + 14 ≤ trieHeight u)
    (hflat : runs = true → ∀ l ∈ lists, onlyFours l = false) :
    ∃ f, mainBuildTries F pad true fs (scriptBuild prog input rank runs out) = .ok (some (out, f)) ∧
      ∀ (fs' : Files) (texts : Str → Option Str), fs' out = some f → texts log = some text →
        ∃ as, mainQueryLog F pad env fs' texts (scriptQueries prog' out log parallel) = .ok (.done as none) ∧
          List.Forall₂ (Answers lists) queries as := by
  have e := kept_all fun l h => (hl l h).2
  have := C95_tries_script_partial F pad hw0 hw1 env he hrank runs parallel hone hu hu' (lists := lists)
    (fun l h => Nat.lt_of_le_of_lt (hl l h).2.2 (by decide))
  rw [e] at this
  exact this (fun l h => (hl l h).1) hn hout hout' hout3 hout4 hlog hio hin ht hq0 hq1 hpar hflat

/-- C95 (partial), `build_fastTries`: for lists of 4096 to 15000 elements the scripts' answers are right, the numbers in the log being positions in the
collection. With runs and parallelism the universe must be large compared with the number of hardware threads (C92). -/
theorem C95_fast_script_partial (B : BvIO) (K : Nat → RankIO) (pad : Nat) (junk junk' : Nat → FastJunk)
    (hj : ∀ i, (junk i).heightWithRuns < 2 ^ 16) {hw : Nat} (hw0 : hw ≠ 0) (hw1 : hw < 2 ^ 16) (env : Nat → Env)
    (he : ∀ i, (env i).hw = hw) {rank size : Str} (hrank : rank ∈ scriptFastRanks) (hsize : size ∈ scriptSizes) (runs parallel : Bool)
    {one u : Nat} (hone : one < 2 ^ 32) (hu : 4096 ≤ u) (hu' : u < 2 ^ 32) {lists : List (List Nat)}
    (hl : ∀ l ∈ lists, ValidSet l u ∧ 4096 ≤ l.length ∧ l.length ≤ 15000) (hn : lists.length < 2 ^ 31)
    {fs : Files} {prog prog' input out log : Str} (hout : out ≠ []) (hout' : plainName out) (hout3 : out ≠ "--levelwise".toList)
    (hout4 : out ≠ "--wsize".toList) (hlog : plainName log) (hio : out ≠ input) (hin : fs input = some (collectionBytes one u lists))
    {text : Str} {queries : List (List Nat)} (ht : LogText text queries) (hq : queries ≠ []) (hq0 : ∀ q ∈ queries, q ≠ [])
    (hq1 : ∀ q ∈ queries, ∀ i ∈ q, i < lists.length)
    (hpar : runs = true → parallel = true → Nat.log2 hw + 14 ≤ trieHeight u) :
    ∃ f, mainBuildFast B K pad junk fs (scriptFastBuild prog input rank runs size out) = .ok (some (out, f)) ∧
      ∀ (fs' : Files) (texts : Str → Option Str), fs' out = some f → texts log = some text →
        ∃ as, mainQueryFast B K pad junk' env fs' texts (scriptQueries prog' out log parallel) = .ok (.done as none) ∧
          List.Forall₂ (Answers lists) queries as := by
  obtain ⟨r, rk, hr, hrok, hap, hr1⟩ : ∃ (r : BuildOption) (rk : Nat), r.words true = ["--rank".toList, rank] ∧ r.Ok true ∧
      r.apply ⟨1, 2 ^ 64 - 1, 0, 512, false, false, 64, false, []⟩ = ⟨1, 2 ^ 64 - 1, rk, 512, false, false, 64, false, []⟩ ∧ rk ≠ 1 := by
    simp only [scriptFastRanks, List.mem_cons, List.not_mem_nil, or_false] at hrank
    rcases hrank with rfl | rfl
    · exact ⟨.rankV, _, rfl, trivial, rfl, by decide⟩
    · exact ⟨.rankV5, _, rfl, trivial, rfl, by decide⟩
  obtain ⟨lg, hlg, hsz⟩ : ∃ lg, (3 ≤ lg ∧ lg ≤ 6) ∧ Nat.toDigits 10 (2 ^ lg) = size := by
    simp only [scriptSizes, List.mem_cons, List.not_mem_nil, or_false] at hsize
    rcases hsize with rfl | rfl | rfl | rfl
    · exact ⟨6, by decide, by decide⟩
    · exact ⟨5, by decide, by decide⟩
    · exact ⟨4, by decide, by decide⟩
    · exact ⟨3, by decide, by decide⟩
  have h2lg : 2 ^ lg ≤ 2 ^ 6 := Nat.pow_le_pow_right (by decide) hlg.2
  have h2lg' : 2 ^ (lg - 1) ≤ 2 ^ 6 := Nat.pow_le_pow_right (by decide) (by omega)
  have hk : kept 1 (2 ^ 64 - 1) lists = lists := kept_all fun l h => by have := (hl l h).2; omega
  have hfold : [BuildOption.minSize 1, r, .runs runs, .wsize (2 ^ lg), .out out].foldl BuildOption.apply .default =
      ⟨1, 2 ^ 64 - 1, rk, 512, runs, false, 2 ^ lg, false, out⟩ := by
    have e : [BuildOption.minSize 1].foldl BuildOption.apply .default = ⟨1, 2 ^ 64 - 1, 0, 512, false, false, 64, false, []⟩ := rfl
    rw [show [BuildOption.minSize 1, r, .runs runs, .wsize (2 ^ lg), .out out] =
      [BuildOption.minSize 1] ++ [r, .runs runs, .wsize (2 ^ lg), .out out] from rfl, List.foldl_append, e, List.foldl_cons, hap]
    rfl
  obtain ⟨f, h1, h2⟩ := C92_fast_session_lengths B K hlg pad junk junk' hj hw0 hw1 env he
    (opts := [.minSize 1, r, .runs runs, .wsize (2 ^ lg), .out out]) (o := ⟨1, 2 ^ 64 - 1, rk, 512, runs, false, 2 ^ lg, false, out⟩)
    (by
      intro o ho
      simp only [List.mem_cons, List.not_mem_nil, or_false] at ho
      rcases ho with rfl | rfl | rfl | rfl | rfl
      · exact (by decide : (1 : Nat) < 2 ^ 64)
      · exact hrok
      · exact trivial
      · exact ⟨rfl, by omega⟩
      · exact ⟨hout3, hout4, hout'.2.1⟩)
    hfold.symm hout rfl hr1 hone (by omega) hu' (lists := lists) (fun l h => Nat.lt_of_le_of_lt (hl l h).2.2 (by decide))
    (fun l h => (hl l (List.mem_of_mem_filter h)).1) (by simp only [hk]; omega) (prog := prog) hio hin
    (qopts := [.parallel parallel]) (prog' := prog') (log := log)
    (by
      intro o ho
      simp only [List.mem_cons, List.not_mem_nil, or_false] at ho
      rcases ho with rfl | rfl | rfl
      · exact hout'
      · exact hlog
      · exact trivial)
    rfl (fun _ => by omega) ht hq hq0 (fun q hq _ i hi => by simp only [hk]; exact hq1 q hq i hi)
    (fun q hq i hi => by have := hq1 q hq i hi; omega)
    (fun hr hp l h => by
      have h3 := (hl l (List.mem_of_mem_filter h)).2.2
      exact Nat.lt_of_lt_of_le (Nat.lt_of_le_of_lt h3 (by decide : 15000 < 2 ^ 14))
        (Nat.pow_le_pow_right (by decide) (by have := hpar hr hp; omega)))
  simp only [hk] at h2
  refine ⟨f, ?_, h2⟩
  have e : (BuildOption.wsize (2 ^ lg)).words true = ["--wsize".toList, size] := by rw [← hsz]; rfl
  rw [← h1]
  simp only [List.flatMap_cons, hr, e, List.flatMap_nil]
  congr 1

theorem answer_unique {sets : List (List Nat)} {q : List Nat} {a b : Option (List Nat)} (ha : Answers sets q a) (hb : Answers sets q b) :
    a = b := by
  by_cases h : q.length ≤ 16
  · obtain ⟨R, e, h1⟩ := ha.1 h
    obtain ⟨R', e', h2⟩ := hb.1 h
    rw [e, e', IsIntersection.unique h1 h2]
  · rw [ha.2 (by omega), hb.2 (by omega)]

theorem answers_unique {sets queries : List (List Nat)} : {as bs : List (Option (List Nat))} → List.Forall₂ (Answers sets) queries as →
    List.Forall₂ (Answers sets) queries bs → as = bs := by
  induction queries with
  | nil => intro as bs ha hb; cases ha; cases hb; rfl
  | cons q qs ih =>
    intro as bs ha hb
    cases ha with
    | cons h hs =>
      cases hb with
      | cons h' hs' => rw [answer_unique h h', ih hs hs']

/-- C95 (partial): the two families of programs give the same answers if all lists have more than 4096 elements. -/
theorem C95_agree_partial (F : Formats) (B : BvIO) (K : Nat → RankIO) (pad : Nat) (junk junk' : Nat → FastJunk)
    (hj : ∀ i, (junk i).heightWithRuns < 2 ^ 16) {hw : Nat} (hw0 : hw ≠ 0) (hw1 : hw < 2 ^ 16) (env : Nat → Env)
    (he : ∀ i, (env i).hw = hw) {rank : List Str} {frank size : Str} (hrank : rank ∈ scriptRanks) (hfrank : frank ∈ scriptFastRanks)
    (hsize : size ∈ scriptSizes) (runs parallel runs' parallel' : Bool)
    {one u : Nat} (hone : one < 2 ^ 32) (hu : 4096 ≤ u) (hu' : u < 2 ^ 32) {lists : List (List Nat)}
    (hl : ∀ l ∈ lists, ValidSet l u ∧ 4096 < l.length ∧ l.length ≤ 15000) (hn : lists.length < 2 ^ 31)
    {fs : Files} {prog prog' input log : Str} (hlog : plainName log) (hin : fs input = some (collectionBytes one u lists))
    (hname : input ≠ "tries".toList)
    {text : Str} {queries : List (List Nat)} (ht : LogText text queries) (hq : queries ≠ []) (hq0 : ∀ q ∈ queries, q ≠ [])
    (hq1 : ∀ q ∈ queries, ∀ i ∈ q, i < lists.length)
    (hpar : runs = true → parallel = true → Nat.log2 hw + 14 ≤ trieHeight u)
    (hpar' : runs' = true → parallel' = true → Nat.log2 hw + 14 ≤ trieHeight u)
    (hflat : runs = true → ∀ l ∈ lists, onlyFours l = false) :
    ∃ f f' as, mainBuildTries F pad true fs (scriptBuild prog input rank runs "tries".toList) = .ok (some ("tries".toList, f)) ∧
      mainBuildFast B K pad junk fs (scriptFastBuild prog input frank runs' size "tries".toList) = .ok (some ("tries".toList, f')) ∧
      (∀ (fs' : Files) (texts : Str → Option Str), fs' "tries".toList = some f → texts log = some text →
        mainQueryLog F pad env fs' texts (scriptQueries prog' "tries".toList log parallel) = .ok (.done as none)) ∧
      ∀ (fs' : Files) (texts : Str → Option Str), fs' "tries".toList = some f' → texts log = some text →
        mainQueryFast B K pad junk' env fs' texts (scriptQueries prog' "tries".toList log parallel') = .ok (.done as none) := by
  have hn' : plainName "tries".toList := by unfold plainName; decide
  obtain ⟨f, h1, h2⟩ := C95_tries_positions_partial F pad hw0 hw1 env he hrank runs parallel hone hu hu' hl hn (prog := prog) (prog' := prog')
    (by decide) hn' (by decide) (by decide) hlog (Ne.symm hname) hin ht hq0 hq1 hpar hflat
  obtain ⟨f', h1', h2'⟩ := C95_fast_script_partial B K pad junk junk' hj hw0 hw1 env he hfrank hsize runs' parallel' hone hu hu'
    (fun l h => ⟨(hl l h).1, Nat.le_of_lt (hl l h).2.1, (hl l h).2.2⟩) hn (prog := prog) (prog' := prog')
    (by decide) hn' (by decide) (by decide) hlog (Ne.symm hname) hin ht hq hq0 hq1 hpar'
  obtain ⟨as, -, h3⟩ := h2 (fun _ => some f) (fun _ => some text) rfl rfl
  refine ⟨f, f', as, h1, h1', fun fs' texts hf ht => ?_, fun fs' texts hf ht => ?_⟩
  · obtain ⟨as', h4, h5⟩ := h2 fs' texts hf ht
    rw [h4, answers_unique h5 h3]
  · obtain ⟨as', h4, h5⟩ := h2' fs' texts hf ht
    rw [h4, answers_unique h5 h3]

theorem isIntersection_range (n : Nat) : IsIntersection [List.range n] (List.range n) := ⟨List.pairwise_lt_range, fun x => by simp⟩

theorem onlyFours_range {n : Nat} (h : n % 4 ≠ 0) : onlyFours (List.range n) = false := by
  rw [Bool.eq_false_iff]
  intro H
  rw [onlyFours, List.all_eq_true] at H
  have h1 := H (n - 1) (List.mem_range.2 (by omega))
  rw [blockFull, List.all_eq_true] at h1
  have h2 := of_decide_eq_true (h1 3 (by decide))
  rw [List.mem_range] at h2
  omega

/-- Two lists that meet the conditions in all modes, on a machine with 64 hardware threads. -/
example : (∀ l ∈ [List.range 4097, List.range 14999], ValidSet l (2 ^ 20) ∧ 4096 < l.length ∧ l.length ≤ 15000) ∧
    (∀ l ∈ [List.range 4097, List.range 14999], onlyFours l = false) ∧ Nat.log2 64 + 14 ≤ trieHeight (2 ^ 20) ∧
    LogText (queriesText [[0, 1], [1]]) [[0, 1], [1]] := by
  refine ⟨?_, ?_, by decide +kernel, logText_queries _⟩ <;> intro l hl <;> simp only [List.mem_cons, List.not_mem_nil, or_false] at hl
  · rcases hl with hl | hl <;> rw [hl] <;> exact ⟨validSet_range (by decide) (by decide), by rw [List.length_range]; decide⟩
  · rcases hl with hl | hl <;> rw [hl] <;> exact onlyFours_range (by decide)

/-- C95 fails for `build_tries`: its script drops lists of exactly 4096 elements, so that the logs name other lists than meant, and not the same
as with `build_fastTries`. Here the query for the first list, `{0, …, 4095}`, is answered with the second, `{0, …, 4999}`. -/
theorem C95_negation (F : Formats) (B : BvIO) (K : Nat → RankIO) (pad : Nat) (junk junk' : Nat → FastJunk)
    (hj : ∀ i, (junk i).heightWithRuns < 2 ^ 16) {hw : Nat} (hw0 : hw ≠ 0) (hw1 : hw < 2 ^ 16) (env : Nat → Env)
    (he : ∀ i, (env i).hw = hw) {rank : List Str} {frank size : Str} (hrank : rank ∈ scriptRanks) (hfrank : frank ∈ scriptFastRanks)
    (hsize : size ∈ scriptSizes) (parallel : Bool) {fs : Files} {prog prog' input log : Str} (hlog : plainName log)
    (hin : fs input = some (collectionBytes 1 8192 [List.range 4096, List.range 5000])) (hname : input ≠ "tries".toList)
    {text : Str} (ht : LogText text [[0]]) :
    ∃ f f', mainBuildTries F pad true fs (scriptBuild prog input rank false "tries".toList) = .ok (some ("tries".toList, f)) ∧
      mainBuildFast B K pad junk fs (scriptFastBuild prog input frank false size "tries".toList) = .ok (some ("tries".toList, f')) ∧
      (∀ (fs' : Files) (texts : Str → Option Str), fs' "tries".toList = some f → texts log = some text →
        mainQueryLog F pad env fs' texts (scriptQueries prog' "tries".toList log parallel) = .ok (.done [some (List.range 5000)] none)) ∧
      ∀ (fs' : Files) (texts : Str → Option Str), fs' "tries".toList = some f' → texts log = some text →
        mainQueryFast B K pad junk' env fs' texts (scriptQueries prog' "tries".toList log parallel) =
          .ok (.done [some (List.range 4096)] none) := by
  have hn' : plainName "tries".toList := by unfold plainName; decide
  have hA : ValidSet (List.range 4096) 8192 ∧ (List.range 4096).length = 4096 := ⟨validSet_range (by decide) (by decide), List.length_range⟩
  have hA' : ValidSet (List.range 5000) 8192 ∧ (List.range 5000).length = 5000 := ⟨validSet_range (by decide) (by decide), List.length_range⟩
  have hi : IsIntersection [List.range 4096] (List.range 4096) := isIntersection_range _
  have hi' : IsIntersection [List.range 5000] (List.range 5000) := isIntersection_range _
  generalize List.range 4096 = A at *
  generalize List.range 5000 = A' at *
  have hk : kept 4096 15000 [A, A'] = [A'] := by simp [kept, hA.2, hA'.2]
  have key : ∀ {sets : List (List Nat)} {S : List Nat}, sets.getD 0 [] = S → IsIntersection [S] S → ∀ {as}, List.Forall₂ (Answers sets) [[0]] as →
      as = [some S] := by
    intro sets S hs hi as h
    refine answers_unique h (.cons ⟨fun _ => ⟨_, rfl, ?_⟩, fun h => absurd h (by decide)⟩ .nil)
    simp only [List.map_cons, List.map_nil, hs]
    exact hi
  obtain ⟨f, h1, h2⟩ := C95_tries_script_partial F pad hw0 hw1 env he hrank false parallel (one := 1) (u := 8192)
    (lists := [A, A']) (by decide) (by decide) (by decide)
    (by intro l hl; simp only [List.mem_cons, List.not_mem_nil, or_false] at hl; rcases hl with rfl | rfl <;> omega)
    (by rw [hk]; intro l hl; simp only [List.mem_singleton] at hl; subst hl; exact hA'.1)
    (by rw [hk]; simp only [List.length_singleton]; decide) (prog := prog) (prog' := prog') (by decide) hn' (by decide) (by decide) hlog (Ne.symm hname) hin ht (by simp)
    (by rw [hk]; simp) (by simp) (by simp)
  obtain ⟨f', h1', h2'⟩ := C95_fast_script_partial B K pad junk junk' hj hw0 hw1 env he hfrank hsize false parallel (one := 1) (u := 8192)
    (lists := [A, A']) (by decide) (by decide) (by decide)
    (by
      intro l hl
      simp only [List.mem_cons, List.not_mem_nil, or_false] at hl
      rcases hl with rfl | rfl
      · exact ⟨hA.1, by omega⟩
      · exact ⟨hA'.1, by omega⟩)
    (by simp) (prog := prog) (prog' := prog') (by decide) hn' (by decide) (by decide) hlog (Ne.symm hname) hin ht (by simp) (by simp) (by simp)
    (by simp)
  refine ⟨f, f', h1, h1', fun fs' texts hf ht => ?_, fun fs' texts hf ht => ?_⟩
  · obtain ⟨as', h4, h5⟩ := h2 fs' texts hf ht
    rw [h4, key (by rw [hk]; rfl) hi' h5]
  · obtain ⟨as', h4, h5⟩ := h2' fs' texts hf ht
    rw [h4, key (S := A) rfl hi h5]

/-! ## Words that are no options -/

/-- C95: words that are not options of a query tool have no effect, as `--#sequences 1107204 --rank v --runs t` of scripts/run_queries.sh: the
number of sets, the rank structure and the run encoding come from the file, and the query is parallel or not by default. -/
theorem C95_other_words (F : Formats) (pad : Nat) (env : Nat → Env) (fs : Files) (texts : Str → Option Str) (prog : Str) {file log : Str}
    (hfile : plainName file) (hlog : plainName log) {ws : List Str} (hws : ∀ w ∈ ws, plainName w) :
    mainQueryLog F pad env fs texts (prog :: file :: log :: ws) = mainQueryLog F pad env fs texts [prog, file, log] := by
  have e : ∀ vs : List Str, (∀ w ∈ vs, plainName w) → queryArgs false (prog :: vs) = .ok ⟨false, true, []⟩ := by
    intro vs hvs
    have h1 := C51_query_options_partial false prog (vs.map .file) (by
      intro o ho
      obtain ⟨w, hw, rfl⟩ := List.mem_map.1 ho
      exact hvs w hw)
    have h2 : ∀ vs : List Str, (vs.map QueryOption.file).flatMap (QueryOption.words false) = vs := by
      intro vs
      induction vs with
      | nil => rfl
      | cons v vs ih => rw [List.map_cons, List.flatMap_cons, ih]; rfl
    have h3 : ∀ (vs : List Str) (s : QuerySettings), (vs.map QueryOption.file).foldl QueryOption.apply s = s := by
      intro vs
      induction vs with
      | nil => intro s; rfl
      | cons v vs ih => intro s; exact ih s
    rw [h2, h3] at h1
    exact h1
  have e1 := e (file :: log :: ws) (by
    intro w hw
    simp only [List.mem_cons] at hw
    rcases hw with rfl | rfl | hw
    · exact hfile
    · exact hlog
    · exact hws w hw)
  have e2 := e [file, log] (by
    intro w hw
    simp only [List.mem_cons, List.not_mem_nil, or_false] at hw
    rcases hw with rfl | rfl
    · exact hfile
    · exact hlog)
  have g1 : argGet (prog :: file :: log :: ws) 1 = .ok file := rfl
  have g2 : argGet (prog :: file :: log :: ws) 2 = .ok log := rfl
  have g3 : argGet [prog, file, log] 1 = .ok file := rfl
  have g4 : argGet [prog, file, log] 2 = .ok log := rfl
  unfold mainQueryLog
  rw [e1, e2, g1, g2, g3, g4, if_neg (by simp), if_neg (by simp)]

/-- The words of scripts/run_queries.sh. -/
example : ∀ w ∈ ["--#sequences".toList, "1107204".toList, "--rank".toList, "v".toList, "--runs".toList, "t".toList], plainName w := by
  unfold plainName; decide

end CBT
