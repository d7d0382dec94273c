import Verif.Proof.CommandLine
import Verif.Props.QueryText

/-!
# C51, C53: the command line, and whole sessions
-/

namespace CBT

open Spec

/-! ## C51: options -/

theorem buildArgs_options (fast : Bool) (prog input : Str) (opts : List BuildOption) (h : ∀ o ∈ opts, o.Ok fast) :
    buildArgs fast (prog :: input :: opts.flatMap (BuildOption.words fast)) = .ok (opts.foldl BuildOption.apply .default) :=
  argLoop_ok (BuildOption.words fast) BuildOption.apply (BuildOption.Ok fast) (buildRound fast) (buildWords_ne fast)
    (buildRound_ok fast) opts h [prog, input] .default

/-- C51, the builders: options may be given in any order and number; every one is recognised, and the last of a kind counts. Without
them: all sizes, plain rank, no runs, flat, 64-bit words. -/
theorem C51_build_options_partial (fast : Bool) (prog input : Str) (opts : List BuildOption) (h : ∀ o ∈ opts, o.Ok fast) :
    buildArgs fast (prog :: input :: opts.flatMap (BuildOption.words fast)) = .ok (opts.foldl BuildOption.apply
      { minSize := 0, maxSize := 2 ^ 64 - 1, rank := 0, block := 512, runs := false, levelwise := false, wsize := 64, verbose := false,
        out := [] }) :=
  buildArgs_options fast prog input opts h

example : buildArgs true (([.rankV, .runs true, .minSize 7, .out ['f'], .wsize 16, .verbose, .rankIl 256, .levelwise false] :
    List BuildOption).flatMap (BuildOption.words true) |> fun l => [] :: [] :: l) =
      .ok ⟨7, 2 ^ 64 - 1, 1, 256, true, false, 16, true, ['f']⟩ :=
  (C51_build_options_partial true [] [] _ (by simp [BuildOption.Ok])).trans rfl

/-- C51, the query tools: likewise; file names are passed over. -/
theorem C51_query_options_partial (fast : Bool) (prog : Str) (opts : List QueryOption) (h : ∀ o ∈ opts, o.Ok fast) :
    queryArgs fast (prog :: opts.flatMap (QueryOption.words fast)) = .ok (opts.foldl QueryOption.apply ⟨false, !fast, []⟩) :=
  argLoop_ok (QueryOption.words fast) QueryOption.apply (QueryOption.Ok fast) (queryRound fast) (queryWords_ne fast)
    (queryRound_ok fast) opts h [prog] ⟨false, !fast, []⟩

example : queryArgs false (([.file ['c'], .file ['q'], .parallel false, .out ['r']] :
    List QueryOption).flatMap (QueryOption.words false) |> fun l => [] :: l) = .ok ⟨false, false, ['r']⟩ :=
  (C51_query_options_partial false [] _ (by simp [QueryOption.Ok])).trans rfl

/-- C51 is false if the value of the last option is missing: the null pointer after the arguments is used, whatever the options before. -/
theorem C51_missing_value_negation (prog input : Str) :
    (∀ (fast : Bool) (opts : List BuildOption), (∀ o ∈ opts, o.Ok fast) →
      ∀ name ∈ ["--min_size".toList, "--max_size".toList, "--rank".toList, "--runs".toList, "--out".toList, "--levelwise".toList],
      buildArgs fast (prog :: input :: (opts.flatMap (BuildOption.words fast) ++ [name])) = .error .null) ∧
    (∀ (fast : Bool) (opts : List QueryOption), (∀ o ∈ opts, o.Ok fast) →
      queryArgs fast (prog :: (opts.flatMap (QueryOption.words fast) ++ ["--parallel".toList])) = .error .null) := by
  obtain ⟨e1, e2, e3, e4, e5, e6, e7, e8, e9, -⟩ := names_eq
  have g : ∀ (pre : List Str) (a : Str), argGet (pre ++ [a]) pre.length = .ok a ∧ argGet (pre ++ [a]) (pre.length + 1) = .error .null :=
    fun pre a => ⟨argGet_append pre _ 0 rfl, by have := argGet_end (pre ++ [a]); simpa using this⟩
  have eb : ∀ {α β : Type} (e : UB) (f : α → R β), ((.error e : R α) >>= f) = .error e := fun _ _ => rfl
  refine ⟨fun fast opts h name hn => ?_, fun fast opts h => ?_⟩
  · refine argLoop_fail (BuildOption.words fast) BuildOption.apply (BuildOption.Ok fast) (buildRound fast) (buildWords_ne fast)
      (buildRound_ok fast) opts h [prog, input] [name] (by simp) .default .null (fun pre s => ?_)
    obtain ⟨g1, g2⟩ := g pre name
    generalize pre ++ [name] = argv at g1 g2 ⊢
    rw [e1, e2, e3, e4, e5, e6] at hn
    simp only [List.mem_cons, List.not_mem_nil, or_false] at hn
    rcases hn with rfl | rfl | rfl | rfl | rfl | rfl
    · simp [buildRound, roundCommon, clause, g1, g2, eb, actMinSize, R_bind_ok]
    · simp [buildRound, roundCommon, clause, g1, g2, eb, actMaxSize, sMinSize, sMaxSize, R_bind_ok]
    · simp [buildRound, roundCommon, clause, g1, g2, eb, actRank, sMinSize, sMaxSize, sRank, R_bind_ok]
    · simp [buildRound, roundCommon, clause, g1, g2, eb, actRuns, sMinSize, sMaxSize, sRank, sRuns, R_bind_ok]
    · simp [buildRound, roundCommon, clause, g1, g2, eb, actOut, sMinSize, sMaxSize, sRank, sRuns, sOut, R_bind_ok]
    · simp [buildRound, roundCommon, clause, g1, g2, eb, actLevelwise, sMinSize, sMaxSize, sRank, sRuns, sOut, sLevelwise, R_bind_ok]
  · refine argLoop_fail (QueryOption.words fast) QueryOption.apply (QueryOption.Ok fast) (queryRound fast) (queryWords_ne fast)
      (queryRound_ok fast) opts h [prog] ["--parallel".toList] (by simp) ⟨false, !fast, []⟩ .null (fun pre s => ?_)
    obtain ⟨g1, g2⟩ := g pre "--parallel".toList
    generalize pre ++ ["--parallel".toList] = argv at g1 g2 ⊢
    rw [e9] at g1
    cases fast <;> simp [queryRound, clause, g1, g2, eb, qActParallel, sOut, sVerbose, sParallel, R_bind_ok]

/-- C51 is false of output files named like an option: the name is taken as the option as well, and eats the next argument. -/
theorem C51_out_name_negation :
    buildArgs false [[], [], sOut, sLevelwise, sRuns, sT] = .ok { BuildSettings.default with out := sLevelwise } ∧
    buildArgs false [[], [], sOut, ['f'], sRuns, sT] = .ok { BuildSettings.default with out := ['f'], runs := true } := by
  decide +kernel

/-- C51, too few arguments: three of the tools stop; `build_tries` goes on, and without any argument uses the null pointer after the
arguments. -/
theorem C51_no_arguments_negation (F : Formats) (B : BvIO) (K : Nat → RankIO) (pad : Nat) (ltr : Bool) (junk : Nat → FastJunk)
    (env : Nat → Env) (fs : Files) (texts : Str → Option Str) (prog : Str) :
    mainBuildTries F pad ltr fs [prog] = .error .null ∧ mainBuildFast B K pad junk fs [prog] = .ok none ∧
    mainQueryLog F pad env fs texts [prog] = .ok .usage ∧ mainQueryFast B K pad junk env fs texts [prog] = .ok .usage :=
  ⟨rfl, rfl, rfl, rfl⟩

/-! ## C53: whole sessions -/

/-- C53, the tools for `flatBinTrie` and `binTrie`: build a collection with `build_tries`, then ask the queries of a log with
`intersection_query_log`. With parallel execution, only for plain tries. -/
theorem C53_tries_session_partial (F : Formats) (pad : Nat) (env : Nat → Env) (hw : ∀ i, (env i).hw ≠ 0 ∧ (env i).hw < 2 ^ 16)
    {opts : List BuildOption} (hopts : ∀ o ∈ opts, o.Ok false) {o : BuildSettings} (ho : o = opts.foldl BuildOption.apply .default)
    (hout : o.out ≠ []) (hs : Supported o.rank o.block o.levelwise)
    {one u : Nat} (hone : one < 2 ^ 32) (hu : 3 ≤ u) (hu' : u < 2 ^ 32) {lists : List (List Nat)}
    (hl : ∀ l ∈ lists, l.length < 2 ^ 30) (hv : ∀ l ∈ kept o.minSize o.maxSize lists, ValidSet l u)
    (hn : (kept o.minSize o.maxSize lists).length < 2 ^ 32)
    (hc : o.runs = true → o.levelwise = false → ∀ l ∈ kept o.minSize o.maxSize lists, ∃ x ∈ l, ∃ y, y / 4 = x / 4 ∧ y ∉ l)
    {fs : Files} {prog input : Str} (hio : o.out ≠ input) (hin : fs input = some (collectionBytes one u lists))
    {qopts : List QueryOption} {prog' log : Str} (hqopts : ∀ q ∈ QueryOption.file o.out :: .file log :: qopts, q.Ok false)
    {c : QuerySettings} (hqc : c = qopts.foldl QueryOption.apply ⟨false, true, []⟩) (hpar : c.parallel = true → o.runs = false)
    {text : Str} {queries : List (List Nat)} (ht : LogText text queries) (hq0 : ∀ q ∈ queries, q ≠ [])
    (hq1 : ∀ q ∈ queries, ∀ i ∈ q, i < (kept o.minSize o.maxSize lists).length ∧ i < 2 ^ 31) :
    ∃ f, mainBuildTries F pad true fs (prog :: input :: opts.flatMap (BuildOption.words false)) = .ok (some (o.out, f)) ∧
      ∀ (fs' : Files) (texts : Str → Option Str), fs' o.out = some f → texts log = some text →
        ∃ as rows, mainQueryLog F pad env fs' texts (prog' :: o.out :: log :: qopts.flatMap (QueryOption.words false)) =
            .ok (.done as (if c.out = [] then none else some (c.out, rows))) ∧
          List.Forall₂ (Answers (kept o.minSize o.maxSize lists)) queries as ∧ IsResults (kept o.minSize o.maxSize lists) queries rows := by
  have hr : o.rank < 2 ^ 32 := ho ▸ settings_rank opts _ (by decide)
  have hb : o.block < 2 ^ 32 := ho ▸ settings_block false opts hopts _ (by decide)
  obtain ⟨f, as, h1, h2, h3⟩ : ∃ f as, buildTries F pad true o.minSize o.maxSize o.rank o.block o.runs o.levelwise
      (collectionBytes one u lists) = .ok f ∧ queryLog F pad c.parallel env queries f = .ok as ∧
      List.Forall₂ (Answers (kept o.minSize o.maxSize lists)) queries as := by
    cases hp : c.parallel with
    | false =>
      exact C43_tries_end_to_end_partial F pad hr hb o.runs o.levelwise hs hone hu hu' hl hv hn hc env (fun i => (hw i).1) hq0
        (fun q h i hi => (hq1 q h i hi).1)
    | true =>
      have hruns := hpar hp
      rw [hruns]
      exact C43_tries_parallel_plain_partial F pad hr hb o.levelwise hs hone hu hu' hl hv hn env hw hq0 (fun q h i hi => (hq1 q h i hi).1)
  refine ⟨f, ?_, fun fs' texts hf' ht' => ⟨as, resultRows queries as, ?_, h3, resultRows_ok h3⟩⟩
  · have e1 : argGet (prog :: input :: opts.flatMap (BuildOption.words false)) 1 = .ok input := rfl
    rw [mainBuildTries, e1, R_bind_ok, buildArgs_options false prog input opts hopts, ← ho, R_bind_ok, hin]
    simp only [if_neg hio, h1, R_bind_ok, if_neg hout]
  · have e1 : argGet (prog' :: o.out :: log :: qopts.flatMap (QueryOption.words false)) 1 = .ok o.out := rfl
    have e2 : argGet (prog' :: o.out :: log :: qopts.flatMap (QueryOption.words false)) 2 = .ok log := rfl
    have e3 : queryArgs false (prog' :: o.out :: log :: qopts.flatMap (QueryOption.words false)) = .ok c :=
      (C51_query_options_partial false prog' _ hqopts).trans (by rw [hqc]; rfl)
    rw [queryLog] at h2
    obtain ⟨⟨fo, s⟩, g1, h2⟩ := bind_ok h2
    obtain ⟨seqs, g2, h2⟩ := bind_ok h2
    rw [mainQueryLog, if_neg (by simp), e1, R_bind_ok, e2, R_bind_ok, e3, R_bind_ok, hf', ht', C50_tries_log ht,
      if_pos (fun q hq i hi => (hq1 q hq i hi).2)]
    simp only [g1, g2, h2, R_bind_ok]

/-- A file system with one file. -/
def Ex.fileAt (name : Str) (b : Bytes) : Files := fun n => if n = name then some b else none

/-- `build_tries c --min_size 1 --out o`, then `intersection_query_log o q --out r`. -/
example :
    (mainBuildTries Ex.formats 0 true (Ex.fileAt ['c'] (collectionBytes 1 64 Ex.coll)) [['b'], ['c'], sMinSize, ['1'], sOut, ['o']] >>=
      fun f => mainQueryLog Ex.formats 0 (fun _ => ⟨4, [], []⟩) (Ex.fileAt ['o'] (f.getD ([], [])).2)
        (fun n => if n = ['q'] then some ['1', ' ', '0', '\n', '2', '\n'] else none) [['p'], ['o'], ['q'], sOut, ['r']]) =
      .ok (.done [some [3, 17, 31], some [0, 1, 2, 3, 4, 5, 6, 7, 8, 9, 10, 11, 12, 13, 14, 15, 31]] (some (['r'], [(2, 3), (1, 17)]))) := by
  decide +kernel

/-- C53, the tools for `fastBinaryTrie`: build a collection with `build_fastTries`, then ask the queries of a log with
`intersection_querylog_fastTrie`. Not with `--rank il`; with parallel execution, only for plain tries of at least two levels. -/
theorem C53_fast_session_partial (B : BvIO) (K : Nat → RankIO) {lg : Nat} (hlg : 3 ≤ lg ∧ lg ≤ 6) (pad : Nat) (junk junk' : Nat → FastJunk)
    (hj : ∀ i, (junk i).heightWithRuns < 2 ^ 16) (env : Nat → Env) (hw : ∀ i, (env i).hw ≠ 0 ∧ (env i).hw < 2 ^ 16)
    {opts : List BuildOption} (hopts : ∀ o ∈ opts, o.Ok true) {o : BuildSettings} (ho : o = opts.foldl BuildOption.apply .default)
    (hout : o.out ≠ []) (hws : o.wsize = 2 ^ lg) (hr1 : o.rank ≠ 1)
    {one u : Nat} (hone : one < 2 ^ 32) (hu : 2 ^ (lg - 1) < u) (hu' : u < 2 ^ 32) {lists : List (List Nat)}
    (hl : ∀ l ∈ lists, l.length < 2 ^ 30) (hv : ∀ l ∈ kept o.minSize o.maxSize lists, ValidSet l u)
    (hn : (kept o.minSize o.maxSize lists).length < 2 ^ 32)
    {fs : Files} {prog input : Str} (hio : o.out ≠ input) (hin : fs input = some (collectionBytes one u lists))
    {qopts : List QueryOption} {prog' log : Str} (hqopts : ∀ q ∈ QueryOption.file o.out :: .file log :: qopts, q.Ok true)
    {c : QuerySettings} (hqc : c = qopts.foldl QueryOption.apply ⟨false, false, []⟩)
    (hpar : c.parallel = true → o.runs = false ∧ 2 ^ lg < u)
    {text : Str} {queries : List (List Nat)} (ht : LogText text queries) (hq : queries ≠ []) (hq0 : ∀ q ∈ queries, q ≠ [])
    (hq1 : ∀ q ∈ queries, q.length ≤ 16 → ∀ i ∈ q, i < (kept o.minSize o.maxSize lists).length) (hq2 : ∀ q ∈ queries, ∀ i ∈ q, i < 2 ^ 64) :
    ∃ f, mainBuildFast B K pad junk fs (prog :: input :: opts.flatMap (BuildOption.words true)) = .ok (some (o.out, f)) ∧
      ∀ (fs' : Files) (texts : Str → Option Str), fs' o.out = some f → texts log = some text →
        ∃ as, mainQueryFast B K pad junk' env fs' texts (prog' :: o.out :: log :: qopts.flatMap (QueryOption.words true)) =
            .ok (.done as none) ∧
          List.Forall₂ (Answers (kept o.minSize o.maxSize lists)) queries as := by
  have hr : o.rank < 2 ^ 32 := ho ▸ settings_rank opts _ (by decide)
  obtain ⟨f, as, h1, h2, h3⟩ : ∃ f as, buildFast B K pad junk o.minSize o.maxSize o.rank o.runs o.levelwise (2 ^ lg)
      (collectionBytes one u lists) = .ok (some f) ∧ queryFast B K pad junk' c.parallel env queries f = .ok as ∧
      List.Forall₂ (Answers (kept o.minSize o.maxSize lists)) queries as := by
    cases hp : c.parallel with
    | false =>
      exact C35_fast_end_to_end B K hlg pad junk junk' hj hr hr1 o.runs o.levelwise hone hu hu' hl hv hn env (fun i => (hw i).1) hq hq0 hq1
    | true =>
      obtain ⟨hruns, hlt⟩ := hpar hp
      rw [hruns]
      exact C35_fast_parallel_plain B K hlg pad junk junk' hj hr hr1 o.levelwise hone hlt hu' hl hv hn env hw hq hq0 hq1
  refine ⟨f, ?_, fun fs' texts hf' ht' => ⟨as, ?_, h3⟩⟩
  · have hne : opts ≠ [] := by rintro rfl; exact hout (by rw [ho]; rfl)
    have hlen := flatMap_words_pos (buildWords_ne true) hne
    have e1 : argGet (prog :: input :: opts.flatMap (BuildOption.words true)) 1 = .ok input := rfl
    rw [mainBuildFast, if_neg (by simp only [List.length_cons]; omega), e1, R_bind_ok, buildArgs_options true prog input opts hopts,
      ← ho, R_bind_ok, hin]
    simp only [if_neg (fun h => hio (And.right h)), hws, h1, R_bind_ok, if_neg hout]
  · have e1 : argGet (prog' :: o.out :: log :: qopts.flatMap (QueryOption.words true)) 1 = .ok o.out := rfl
    have e2 : argGet (prog' :: o.out :: log :: qopts.flatMap (QueryOption.words true)) 2 = .ok log := rfl
    have e3 : queryArgs true (prog' :: o.out :: log :: qopts.flatMap (QueryOption.words true)) = .ok c :=
      (C51_query_options_partial true prog' _ hqopts).trans (by rw [hqc]; rfl)
    have h2' := ((C50_tools ht f pad c.parallel env as).2 B K junk' hq2).2 h2
    rw [mainQueryFast, if_neg (by simp), e3, R_bind_ok, e1, R_bind_ok, e2, R_bind_ok, hf', ht']
    simp only [h2', R_bind_ok]

/-- `build_fastTries c --min_size 1 --wsize 8 --runs t --out o`, then `intersection_querylog_fastTrie o q`. -/
example :
    (mainBuildFast Ex.bvIO (fun _ => Ex.rankIO) 0 (fun _ => Ex.junk) (Ex.fileAt ['c'] (collectionBytes 1 64 Ex.coll))
        [['b'], ['c'], sMinSize, ['1'], sWsize, ['8'], sRuns, sT, sOut, ['o']] >>=
      fun f => mainQueryFast Ex.bvIO (fun _ => Ex.rankIO) 0 (fun _ => Ex.junk) (fun _ => ⟨4, [], []⟩) (Ex.fileAt ['o'] (f.getD ([], [])).2)
        (fun n => if n = ['q'] then some ['1', ' ', '0', '\n', '2', '\n'] else none) [['p'], ['o'], ['q']]) =
      .ok (.done [some [3, 17, 31], some [0, 1, 2, 3, 4, 5, 6, 7, 8, 9, 10, 11, 12, 13, 14, 15, 31]] none) := by
  decide +kernel

end CBT
