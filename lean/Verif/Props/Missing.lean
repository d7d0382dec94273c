import Verif.Props.StatsMain
import Verif.Props.CommandLine
import Verif.Proof.Checks

/-!
# C89: files that cannot be opened
-/

namespace CBT

open Spec

/-- C89, the builders: if the collection cannot be opened, nothing is written. -/
theorem C89_builders (F : Formats) (B : BvIO) (K : Nat → RankIO) (pad : Nat) (ltr : Bool) (junk : Nat → FastJunk) (fs : Files)
    (prog input : Str) (hin : fs input = none) :
    (∀ opts : List BuildOption, (∀ o ∈ opts, o.Ok false) →
      mainBuildTries F pad ltr fs (prog :: input :: opts.flatMap (BuildOption.words false)) = .ok none) ∧
    (∀ opts : List BuildOption, (∀ o ∈ opts, o.Ok true) →
      mainBuildFast B K pad junk fs (prog :: input :: opts.flatMap (BuildOption.words true)) = .ok none) := by
  refine ⟨fun opts h => ?_, fun opts h => ?_⟩
  · have e1 : argGet (prog :: input :: opts.flatMap (BuildOption.words false)) 1 = .ok input := rfl
    rw [mainBuildTries, e1, R_bind_ok, buildArgs_options false prog input opts h, R_bind_ok, hin]
  · have e1 : argGet (prog :: input :: opts.flatMap (BuildOption.words true)) 1 = .ok input := rfl
    rw [mainBuildFast]
    by_cases hlen : (prog :: input :: opts.flatMap (BuildOption.words true)).length < 3
    · rw [if_pos hlen]
    · rw [if_neg hlen, e1, R_bind_ok, buildArgs_options true prog input opts h, R_bind_ok, hin]

example : ∀ o ∈ ([.rankV5, .out ['f'], .runs true] : List BuildOption), o.Ok true := by simp [BuildOption.Ok]

/-- C89, the programs that check encodings: likewise they stop without a verdict. -/
theorem C89_checkers (F : Formats) (B : BvIO) (K : Nat → RankIO) (pad : Nat) (junk : Nat → FastJunk) (fs : Files)
    (prog input : Str) (hin : fs input = none) :
    (∀ opts : List BuildOption, (∀ o ∈ opts, o.CheckOk false) →
      mainTestEncoding F pad fs (prog :: input :: opts.flatMap (BuildOption.words false)) = .ok none) ∧
    (∀ opts : List BuildOption, (∀ o ∈ opts, o.CheckOk true) →
      mainTestFast B K pad junk fs (prog :: input :: opts.flatMap (BuildOption.words true)) = .ok none) := by
  refine ⟨fun opts h => ?_, fun opts h => ?_⟩
  · by_cases h0 : opts = []
    · subst h0; rfl
    · rw [mainTestEncoding_any F pad fs prog input h0 h rfl, hin]
  · rw [mainTestFast_any B K pad junk fs prog input h rfl, hin]

example : ∀ o ∈ ([.rankV, .runs true] : List BuildOption), o.CheckOk false := by simp [BuildOption.CheckOk]

/-- C89 is false of the statistics tools: they go on, and use a variable that has no value. -/
theorem C89_stats_negation (prog input : Str) (args : List LengthArg) (hp : prog ≠ "--min_length".toList)
    (hi : input ≠ "--min_length".toList) (h : ∀ o ∈ args, o.Ok) (fs : Files) (hin : fs input = none) :
    (∀ pad, mainMeasures pad fs (prog :: input :: args.flatMap LengthArg.words) = .error .uninit) ∧
    (∀ stop coder fuel, 1 ≤ fuel → mainCoders stop coder fuel fs (prog :: input :: args.flatMap LengthArg.words) = .error .uninit) ∧
    (∀ coder fuel, 1 ≤ fuel → mainPom coder fuel fs (prog :: input :: args.flatMap LengthArg.words) = .error .uninit) := by
  have e : statsArgs (prog :: input :: args.flatMap LengthArg.words) = .ok (args.foldl LengthArg.apply 0) :=
    statsArgs_ok (.word prog :: .word input :: args) (lengthArgs_ok hp hi h)
  have e1 : argGet (prog :: input :: args.flatMap LengthArg.words) 1 = .ok input := rfl
  have hlen : ¬ (prog :: input :: args.flatMap LengthArg.words).length < 2 := by simp
  refine ⟨fun pad => ?_, fun stop coder fuel hf => ?_, fun coder fuel hf => ?_⟩
  · rw [mainMeasures, if_neg hlen, e1, R_bind_ok, e, R_bind_ok, hin]
  · obtain ⟨f, rfl⟩ : ∃ f, fuel = f + 1 := ⟨fuel - 1, by omega⟩
    rw [mainCoders, if_neg hlen, e1, R_bind_ok, e, R_bind_ok, hin]
    cases stop <;> rfl
  · obtain ⟨f, rfl⟩ : ∃ f, fuel = f + 1 := ⟨fuel - 1, by omega⟩
    rw [mainPom, if_neg hlen, e1, R_bind_ok, e, R_bind_ok, hin]
    rfl

example : mainCoders false List.sum 1 (fun _ => none) ((.word ['m'] :: .word ['c'] :: [.minLength 1] : List LengthArg).flatMap LengthArg.words) =
    .error .uninit := by decide +kernel

/-- C89 is false of the query tool for `build_fastTries` and of both programs that check intersections: they use a variable that has no
value. -/
theorem C89_query_fast_negation (F : Formats) (B : BvIO) (K : Nat → RankIO) (pad : Nat) (junk : Nat → FastJunk)
    (sort : List (List Nat) → List (List Nat)) (env : Nat → Env) (fs : Files) (texts : Str → Option Str) (prog input log : Str)
    (hin : fs input = none) :
    (∀ opts : List QueryOption, (∀ o ∈ .file input :: .file log :: opts, QueryOption.Ok true o) →
      mainQueryFast B K pad junk env fs texts (prog :: input :: log :: opts.flatMap (QueryOption.words true)) = .error .uninit) ∧
    (∀ (rest : List Str) (queries : List (List Nat)), loadQueryLog stoiU64 (texts log) = .ok queries →
      mainTestIntersection F pad sort env fs texts (prog :: input :: log :: rest) = .error .uninit ∧
      mainTestIntersectionFast B K pad junk sort env fs texts (prog :: input :: log :: rest) = .error .uninit) := by
  refine ⟨fun opts h => ?_, fun rest queries h => ⟨?_, ?_⟩⟩
  · have e := C51_query_options_partial true prog (.file input :: .file log :: opts) h
    have e1 : argGet (prog :: input :: log :: opts.flatMap (QueryOption.words true)) 1 = .ok input := rfl
    have e2 : argGet (prog :: input :: log :: opts.flatMap (QueryOption.words true)) 2 = .ok log := rfl
    rw [mainQueryFast, if_neg (by simp)]
    rw [show prog :: input :: log :: opts.flatMap (QueryOption.words true) =
      prog :: (QueryOption.file input :: .file log :: opts).flatMap (QueryOption.words true) from rfl] at e1 e2 ⊢
    rw [e, R_bind_ok, e1, R_bind_ok, e2, R_bind_ok, hin]
  · have e1 : argGet (prog :: input :: log :: rest) 1 = .ok input := rfl
    have e2 : argGet (prog :: input :: log :: rest) 2 = .ok log := rfl
    rw [mainTestIntersection, if_neg (by simp), e1, R_bind_ok, e2, R_bind_ok, h, R_bind_ok, hin]
  · have e1 : argGet (prog :: input :: log :: rest) 1 = .ok input := rfl
    have e2 : argGet (prog :: input :: log :: rest) 2 = .ok log := rfl
    rw [mainTestIntersectionFast, if_neg (by simp), e1, R_bind_ok, e2, R_bind_ok, h, R_bind_ok, hin]

example : loadQueryLog stoiU64 (some "0 2\n1\n".toList) = .ok [[0, 2], [1]] := by decide +kernel

/-- C89 is false of the query tool for `build_tries`: without the tries it takes elements of an empty vector, unless the log has no query that
names a set. -/
theorem C89_query_log_negation (F : Formats) (pad : Nat) (env : Nat → Env) (fs : Files) (texts : Str → Option Str) (prog input log : Str)
    (hin : fs input = none) (opts : List QueryOption) (h : ∀ o ∈ .file input :: .file log :: opts, QueryOption.Ok false o)
    {i : Nat} {q : List Nat} {qs : List (List Nat)} (hq : loadQueryLog stoiU32 (texts log) = .ok ((i :: q) :: qs)) :
    mainQueryLog F pad env fs texts (prog :: input :: log :: opts.flatMap (QueryOption.words false)) = .error .oob := by
  have e := C51_query_options_partial false prog (.file input :: .file log :: opts) h
  have e1 : argGet (prog :: input :: log :: opts.flatMap (QueryOption.words false)) 1 = .ok input := rfl
  have e2 : argGet (prog :: input :: log :: opts.flatMap (QueryOption.words false)) 2 = .ok log := rfl
  rw [mainQueryLog, if_neg (by simp)]
  rw [show prog :: input :: log :: opts.flatMap (QueryOption.words false) =
    prog :: (QueryOption.file input :: .file log :: opts).flatMap (QueryOption.words false) from rfl] at e1 e2 ⊢
  rw [e1, R_bind_ok, e2, R_bind_ok, e, R_bind_ok, hin]
  dsimp only
  rw [R_bind_ok]
  dsimp only
  rw [hq, R_bind_ok]
  rfl

example : loadQueryLog stoiU32 (some "0 2\n1\n".toList) = .ok ((0 :: [2]) :: [[1]]) ∧
    (∀ o ∈ .file ['c'] :: .file ['q'] :: [.parallel false], QueryOption.Ok false o) := by
  refine ⟨by decide +kernel, ?_⟩
  simp [QueryOption.Ok]

/-- C89, the query tools without a query log: if they end, no query was answered, and a results file has no lines. `C89_no_log_negation`
says when they do not end in this way. -/
theorem C89_no_log (F : Formats) (B : BvIO) (K : Nat → RankIO) (pad : Nat) (junk : Nat → FastJunk) (env : Nat → Env) (fs : Files)
    (texts : Str → Option Str) (prog input log : Str) (hlog : texts log = none) (rest : List Str) (r : QueryRun) :
    (mainQueryLog F pad env fs texts (prog :: input :: log :: rest) = .ok r →
      ∃ out, r = .done [] out ∧ ∀ name rows, out = some (name, rows) → rows = []) ∧
    (mainQueryFast B K pad junk env fs texts (prog :: input :: log :: rest) = .ok r → r = .done [] none) := by
  have e1 : argGet (prog :: input :: log :: rest) 1 = .ok input := rfl
  have e2 : argGet (prog :: input :: log :: rest) 2 = .ok log := rfl
  refine ⟨fun h => ?_, fun h => ?_⟩
  · rw [mainQueryLog, if_neg (by simp), e1, R_bind_ok, e2, R_bind_ok] at h
    obtain ⟨c, -, h⟩ := bind_ok h
    have fin : ∀ runs seqs, (do
        let queries ← loadQueryLog stoiU32 (texts log)
        let as ← answerLog seqs (fun i ts => intersect ts runs c.parallel (env i)) 0 queries
        (Except.ok (QueryRun.done as (if c.out = [] then none else some (c.out, resultRows queries as))) : R QueryRun)) = .ok r →
        ∃ out, r = .done [] out ∧ ∀ name rows, out = some (name, rows) → rows = [] := by
      intro runs seqs h
      rw [hlog, loadQueryLog, R_bind_ok, answerLog, R_bind_ok] at h
      cases Except.ok.inj h
      refine ⟨_, rfl, fun name rows h => ?_⟩
      split at h
      · cases h
      · cases h; rfl
    cases hs : fs input with
    | none => rw [hs] at h; exact fin _ _ h
    | some s =>
      rw [hs] at h
      obtain ⟨⟨o, s'⟩, -, h⟩ := bind_ok h
      dsimp only at h
      obtain ⟨seqs, -, h⟩ := bind_ok h
      exact fin _ _ h
  · rw [mainQueryFast, if_neg (by simp)] at h
    obtain ⟨c, -, h⟩ := bind_ok h
    rw [e1, R_bind_ok, e2, R_bind_ok] at h
    cases hs : fs input with
    | none => rw [hs] at h; cases h
    | some s =>
      rw [hs] at h
      obtain ⟨as, ha, h⟩ := bind_ok h
      rw [hlog, queryFastText] at ha
      obtain ⟨⟨o, s'⟩, -, ha⟩ := bind_ok ha
      dsimp only at ha
      rw [loadQueryLog, R_bind_ok] at ha
      obtain ⟨m, -, ha⟩ := bind_ok ha
      cases Except.ok.inj ha
      cases Except.ok.inj h
      rfl

/-- Files that announce at least one trie are not loaded for an empty log: the first id asked for is read. -/
theorem loadLoop_nil {T : Type} (load : Nat → Bytes → R (T × Bytes)) {n : Nat} (hn : 0 < n) (i : Nat) (s : Bytes) (m : List (Nat × T)) :
    loadLoop load n i [] s ≠ .ok m := by
  obtain ⟨k, rfl⟩ : ∃ k, n = k + 1 := ⟨n - 1, by omega⟩
  intro h
  rw [loadLoop] at h
  obtain ⟨⟨t, s⟩, -, h⟩ := bind_ok h
  cases h

/-- C89 is false of three programs without a query log: if the collection holds any trie, they do not end normally. They read the first number
of an empty vector after loading the first trie. -/
theorem C89_no_log_negation (F : Formats) (B : BvIO) (K : Nat → RankIO) (pad : Nat) (junk : Nat → FastJunk)
    (sort : List (List Nat) → List (List Nat)) (env : Nat → Env) (fs : Files) (texts : Str → Option Str) (prog input log : Str)
    (hlog : texts log = none) (rest : List Str) {s s1 s2 : Bytes} {n : Nat} (hs : fs input = some s) (hn : 0 < n)
    (hc : readLE 4 s1 = .ok (n, s2)) :
    (∀ o, readFastFileHeader s = .ok (o, s1) → ∀ r, mainQueryFast B K pad junk env fs texts (prog :: input :: log :: rest) ≠ .ok r) ∧
    (∀ o, readTriesFileHeader s = .ok (o, s1) → ∀ r, mainTestIntersection F pad sort env fs texts (prog :: input :: log :: rest) ≠ .ok r ∧
      mainTestIntersectionFast B K pad junk sort env fs texts (prog :: input :: log :: rest) ≠ .ok r) := by
  have e1 : argGet (prog :: input :: log :: rest) 1 = .ok input := rfl
  have e2 : argGet (prog :: input :: log :: rest) 2 = .ok log := rfl
  have e3 : setIndexes [] = [] := by decide +kernel
  refine ⟨fun o ho r h => ?_, fun o ho r => ⟨fun h => ?_, fun h => ?_⟩⟩
  · rw [mainQueryFast, if_neg (by simp)] at h
    obtain ⟨c, -, h⟩ := bind_ok h
    rw [e1, R_bind_ok, e2, R_bind_ok, hs] at h
    obtain ⟨as, ha, -⟩ := bind_ok h
    rw [hlog, queryFastText, ho, R_bind_ok] at ha
    dsimp only at ha
    rw [loadQueryLog, R_bind_ok] at ha
    obtain ⟨m, hm, -⟩ := bind_ok ha
    rw [loadTriesFast, hc, R_bind_ok] at hm
    dsimp only at hm
    obtain ⟨⟨_, s3⟩, -, hm⟩ := bind_ok hm
    obtain ⟨⟨_, s4⟩, -, hm⟩ := bind_ok hm
    dsimp only at hm
    rw [e3] at hm
    exact loadLoop_nil _ hn _ _ _ hm
  · rw [mainTestIntersection, if_neg (by simp), e1, R_bind_ok, e2, R_bind_ok, hlog, loadQueryLog, R_bind_ok, hs] at h
    obtain ⟨as, ha, -⟩ := bind_ok h
    rw [testIntersection, ho, R_bind_ok] at ha
    dsimp only at ha
    rw [hc, R_bind_ok] at ha
    dsimp only at ha
    obtain ⟨⟨_, s3⟩, -, ha⟩ := bind_ok ha
    obtain ⟨⟨_, s4⟩, -, ha⟩ := bind_ok ha
    dsimp only at ha
    obtain ⟨m, hm, -⟩ := bind_ok ha
    rw [e3] at hm
    exact loadLoop_nil _ hn _ _ _ hm
  · rw [mainTestIntersectionFast, if_neg (by simp), e1, R_bind_ok, e2, R_bind_ok, hlog, loadQueryLog, R_bind_ok, hs] at h
    obtain ⟨as, ha, -⟩ := bind_ok h
    rw [testIntersectionFast, readCheckFastHeader, ho, R_bind_ok] at ha
    dsimp only at ha
    obtain ⟨m, hm, -⟩ := bind_ok ha
    rw [loadTriesFast, hc, R_bind_ok] at hm
    dsimp only at hm
    obtain ⟨⟨_, s3⟩, -, hm⟩ := bind_ok hm
    obtain ⟨⟨_, s4⟩, -, hm⟩ := bind_ok hm
    dsimp only at hm
    rw [e3] at hm
    exact loadLoop_nil _ hn _ _ _ hm

example : readFastFileHeader ([0, 0, 0, 0, 1, 0, 64, 0] ++ leBytes 4 3 ++ leBytes 4 1 ++ leBytes 4 9) =
      .ok (⟨0, 512, true, false, 64⟩, leBytes 4 3 ++ leBytes 4 1 ++ leBytes 4 9) ∧
    readLE 4 (leBytes 4 3 ++ leBytes 4 1 ++ leBytes 4 9) = .ok (3, leBytes 4 1 ++ leBytes 4 9) := by decide +kernel

end CBT
