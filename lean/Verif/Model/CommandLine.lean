import Verif.Model.QueryText

/-!
# The `main` functions of the builders and of the query tools

`argv` includes the name of the program; `argv[argc]` is a null pointer, from which no `std::string` may be made. Files are given
by their names; `none` is a file that cannot be opened. Every file name other than the empty one can be written to (see `Model/BuildFiles`
and `Model/ResultsFile` for others). What is printed is not modelled, nor a query tool whose results file is one of its inputs (see
`Model/ResultsFile`).
-/

namespace CBT

/-- `std::string(argv[i])`. -/
def argGet (argv : List Str) (i : Nat) : R Str :=
  match argv[i]? with
  | some s => .ok s
  | none => if i = argv.length then .error .null else .error .oob

/-- `std::atoi` (tools/build_tries.cpp:233, tools/build_fastTries.cpp:182, 208) converted to an unsigned type of `bits` bits: 0 if
there is no number, undefined if it is not an `int`. -/
def atoi (bits : Nat) (s : Str) : R Nat :=
  match scanNumber s with
  | none => .ok 0
  | some (false, m) => if m < 2 ^ 31 then .ok (m % 2 ^ bits) else .error .conv
  | some (true, m) => if m ≤ 2 ^ 31 then .ok ((2 ^ 32 - m) % 2 ^ bits) else .error .conv

/-! The strings the programs compare with. -/

def sMinSize : Str := ['-', '-', 'm', 'i', 'n', '_', 's', 'i', 'z', 'e']
def sMaxSize : Str := ['-', '-', 'm', 'a', 'x', '_', 's', 'i', 'z', 'e']
def sRank : Str := ['-', '-', 'r', 'a', 'n', 'k']
def sRuns : Str := ['-', '-', 'r', 'u', 'n', 's']
def sOut : Str := ['-', '-', 'o', 'u', 't']
def sLevelwise : Str := ['-', '-', 'l', 'e', 'v', 'e', 'l', 'w', 'i', 's', 'e']
def sWsize : Str := ['-', '-', 'w', 's', 'i', 'z', 'e']
def sVerbose : Str := ['-', '-', 'v', 'e', 'r', 'b', 'o', 's', 'e']
def sParallel : Str := ['-', '-', 'p', 'a', 'r', 'a', 'l', 'l', 'e', 'l']
def sV : Str := ['v']
def sIl : Str := ['i', 'l']
def sT : Str := ['t']

/-- The settings of a builder. `wsize` is of `build_fastTries` only. -/
structure BuildSettings where
  minSize : Nat
  maxSize : Nat
  rank : Nat
  block : Nat
  runs : Bool
  levelwise : Bool
  wsize : Nat
  verbose : Bool
  out : Str
  deriving DecidableEq, Repr

/-- tools/build_tries.cpp:13-14, 207-212, tools/build_fastTries.cpp:9, 154-161. -/
def BuildSettings.default : BuildSettings := ⟨0, 2 ^ 64 - 1, 0, 512, false, false, 64, false, []⟩

/-- `if (std::string(argv[i]) == name) { ++i; … }`: `act` gets the position after the name. One round of the loops of `main` is a
sequence of these, without `else`: every one of them looks at the position the one before it has left. -/
def clause {S : Type} (argv : List Str) (name : Str) (act : S → Nat → R (S × Nat)) (x : S × Nat) : R (S × Nat) := do
  let a ← argGet argv x.2
  if a = name then act x.1 (x.2 + 1) else .ok x

/-- tools/build_tries.cpp:217-220, tools/build_fastTries.cpp:166-169. -/
def actMinSize (argv : List Str) (o : BuildSettings) (i : Nat) : R (BuildSettings × Nat) := do
  let a ← argGet argv i
  let n ← stoull a
  .ok ({ o with minSize := n }, i)

/-- tools/build_tries.cpp:221-224, tools/build_fastTries.cpp:170-173. -/
def actMaxSize (argv : List Str) (o : BuildSettings) (i : Nat) : R (BuildSettings × Nat) := do
  let a ← argGet argv i
  let n ← stoull a
  .ok ({ o with maxSize := n }, i)

/-- tools/build_tries.cpp:225-238, tools/build_fastTries.cpp:174-187. -/
def actRank (argv : List Str) (o : BuildSettings) (i : Nat) : R (BuildSettings × Nat) := do
  let a ← argGet argv i
  if a = sV then .ok ({ o with rank := 0 }, i)
  else if a = sIl then do
    let b ← argGet argv (i + 1)
    let n ← atoi 32 b
    .ok ({ o with rank := 1, block := n }, i + 1)
  else .ok ({ o with rank := 2 }, i)

/-- tools/build_tries.cpp:239-245, tools/build_fastTries.cpp:188-194. -/
def actRuns (argv : List Str) (o : BuildSettings) (i : Nat) : R (BuildSettings × Nat) := do
  let a ← argGet argv i
  .ok ({ o with runs := decide (a = sT) }, i)

/-- tools/build_tries.cpp:246-249, tools/build_fastTries.cpp:195-198. -/
def actOut (argv : List Str) (o : BuildSettings) (i : Nat) : R (BuildSettings × Nat) := do
  let a ← argGet argv i
  .ok ({ o with out := a }, i)

/-- tools/build_tries.cpp:250-256, tools/build_fastTries.cpp:199-205. -/
def actLevelwise (argv : List Str) (o : BuildSettings) (i : Nat) : R (BuildSettings × Nat) := do
  let a ← argGet argv i
  .ok ({ o with levelwise := decide (a = sT) }, i)

/-- tools/build_fastTries.cpp:206-209. -/
def actWsize (argv : List Str) (o : BuildSettings) (i : Nat) : R (BuildSettings × Nat) := do
  let a ← argGet argv i
  let n ← atoi 16 a
  .ok ({ o with wsize := n }, i)

/-- tools/build_tries.cpp:257-263. -/
def actVerbose (argv : List Str) (o : BuildSettings) (i : Nat) : R (BuildSettings × Nat) := do
  let a ← argGet argv i
  .ok ({ o with verbose := decide (a = sT) }, i)

/-- tools/build_fastTries.cpp:210-211: no value, so the position stays. -/
def actVerboseFast (o : BuildSettings) (i : Nat) : R (BuildSettings × Nat) := .ok ({ o with verbose := true }, i - 1)

/-- The six options that both builders treat alike, in this order (tools/build_tries.cpp:217-256,
tools/build_fastTries.cpp:166-205). -/
def roundCommon (argv : List Str) (x : BuildSettings × Nat) : R (BuildSettings × Nat) := do
  let x ← clause argv sMinSize (actMinSize argv) x
  let x ← clause argv sMaxSize (actMaxSize argv) x
  let x ← clause argv sRank (actRank argv) x
  let x ← clause argv sRuns (actRuns argv) x
  let x ← clause argv sOut (actOut argv) x
  clause argv sLevelwise (actLevelwise argv) x

/-- One round of the loop of `build_tries` (tools/build_tries.cpp:216-264), or of `build_fastTries` (tools/build_fastTries.cpp:165-212). -/
def buildRound (fast : Bool) (argv : List Str) (x : BuildSettings × Nat) : R (BuildSettings × Nat) := do
  let x ← roundCommon argv x
  if fast then do
    let x ← clause argv sWsize (actWsize argv) x
    clause argv sVerbose actVerboseFast x
  else clause argv sVerbose (actVerbose argv) x

/-- `for (int i = …; i < argc; ++i)`. Every round moves on, so `argc` rounds are enough. -/
def argLoop {S : Type} (round : S × Nat → R (S × Nat)) (argc : Nat) : (fuel : Nat) → S × Nat → R S
  | 0, _ => .error .fuel
  | fuel + 1, x =>
    if x.2 < argc then do
      let y ← round x
      argLoop round argc fuel (y.1, y.2 + 1)
    else .ok x.1

/-- The loop over the options (tools/build_tries.cpp:216-264, tools/build_fastTries.cpp:165-212). -/
def buildArgs (fast : Bool) (argv : List Str) : R BuildSettings :=
  argLoop (buildRound fast argv) argv.length (argv.length + 1) (.default, 2)

/-- The files that can be opened, with their bytes. -/
abbrev Files := Str → Option Bytes

/-- `main` of `build_tries` (tools/build_tries.cpp:193-295): the file written, with its name. With too few arguments it prints how
to use it, and goes on. Without an output file name all tries are built nevertheless; the model also computes the bytes not written, which
makes a difference only for `binTrie_il` (see `Model/BuildFiles`). Opening the output file empties it, so if it
is the input, nothing is read and the universe is not initialised (lines 43, 50-53). -/
def mainBuildTries (F : Formats) (pad : Nat) (ltr : Bool) (fs : Files) (argv : List Str) : R (Option (Str × Bytes)) := do
  let input ← argGet argv 1
  let o ← buildArgs false argv
  match fs input with
  | none => .ok none
  | some s =>
    if o.out = input then .error .uninit
    else do
    let f ← buildTries F pad ltr o.minSize o.maxSize o.rank o.block o.runs o.levelwise s
    .ok (if o.out = [] then none else some (o.out, f))

/-- `main` of `build_fastTries` (tools/build_fastTries.cpp:139-246): with too few arguments it stops. For another word size than 8,
16, 32 or 64 nothing is done, not even opening the files. If the output is the input: as for `build_tries` (lines 38, 45-48). -/
def mainBuildFast (B : BvIO) (K : Nat → RankIO) (pad : Nat) (junk : Nat → FastJunk) (fs : Files) (argv : List Str) :
    R (Option (Str × Bytes)) :=
  if argv.length < 3 then .ok none
  else do
    let input ← argGet argv 1
    let o ← buildArgs true argv
    match fs input with
    | none => .ok none
    | some s =>
      if wordLg o.wsize ≠ none ∧ o.out = input then .error .uninit
      else do
      let f ← buildFast B K pad junk o.minSize o.maxSize o.rank o.runs o.levelwise o.wsize s
      match f with
      | none => .ok none
      | some f => .ok (if o.out = [] then none else some (o.out, f))

/-- The settings of a query tool; `out` is of `intersection_query_log` only. -/
structure QuerySettings where
  verbose : Bool
  parallel : Bool
  out : Str
  deriving DecidableEq, Repr

/-- tools/intersection_query_log.cpp:192-195. -/
def qActOut (argv : List Str) (o : QuerySettings) (i : Nat) : R (QuerySettings × Nat) := do
  let a ← argGet argv i
  .ok ({ o with out := a }, i)

/-- tools/intersection_query_log.cpp:196-202. -/
def qActVerbose (argv : List Str) (o : QuerySettings) (i : Nat) : R (QuerySettings × Nat) := do
  let a ← argGet argv i
  .ok ({ o with verbose := decide (a = sT) }, i)

/-- tools/intersection_querylog_fastTrie.cpp:137-139. -/
def qActVerboseFast (o : QuerySettings) (i : Nat) : R (QuerySettings × Nat) := .ok ({ o with verbose := true }, i - 1)

/-- tools/intersection_query_log.cpp:203-209, tools/intersection_querylog_fastTrie.cpp:140-146. -/
def qActParallel (argv : List Str) (o : QuerySettings) (i : Nat) : R (QuerySettings × Nat) := do
  let a ← argGet argv i
  .ok ({ o with parallel := decide (a = sT) }, i)

/-- One round of the loop of a query tool (tools/intersection_query_log.cpp:191-210,
tools/intersection_querylog_fastTrie.cpp:136-147). -/
def queryRound (fast : Bool) (argv : List Str) (x : QuerySettings × Nat) : R (QuerySettings × Nat) :=
  if fast then do
    let x ← clause argv sVerbose qActVerboseFast x
    clause argv sParallel (qActParallel argv) x
  else do
    let x ← clause argv sOut (qActOut argv) x
    let x ← clause argv sVerbose (qActVerbose argv) x
    clause argv sParallel (qActParallel argv) x

/-- The loop over the options, which starts with the file names; `parallel` is true by default for one tool and false for the other
(tools/intersection_query_log.cpp:22-23, 186, 191-210, tools/intersection_querylog_fastTrie.cpp:17-18, 136-147). -/
def queryArgs (fast : Bool) (argv : List Str) : R QuerySettings :=
  argLoop (queryRound fast argv) argv.length (argv.length + 1) (⟨false, !fast, []⟩, 1)

/-- What `main` of a query tool does: stops with too few arguments (`usage`), or goes through the queries. For
`intersection_query_log`, `file` is the name of the results file, and has for every answered query the number of sets and the size of
the intersection; the times are left out. -/
inductive QueryRun
  | usage
  | done (answers : List (Option (List Nat))) (file : Option (Str × List (Nat × Nat)))
  deriving DecidableEq

/-- The lines of the results file (tools/intersection_query_log.cpp:130-159). -/
def resultRows : (queries : List (List Nat)) → (answers : List (Option (List Nat))) → List (Nat × Nat)
  | q :: qs, some a :: as => (q.length, a.length) :: resultRows qs as
  | _ :: qs, none :: as => resultRows qs as
  | _, _ => []

/-- `main` of `intersection_query_log` (tools/intersection_query_log.cpp:171-231). If the collection cannot be opened, all reads fail and
the settings keep their first values. -/
def mainQueryLog (F : Formats) (pad : Nat) (env : Nat → Env) (fs : Files) (texts : Str → Option Str) (argv : List Str) : R QueryRun :=
  if argv.length < 3 then .ok .usage
  else do
    let sequences ← argGet argv 1
    let log ← argGet argv 2
    let c ← queryArgs false argv
    let (runs, seqs) ← match fs sequences with
      | none => (.ok (false, []) : R (Bool × List Nav))
      | some s => do
        let (o, s) ← readTriesFileHeader s
        let seqs ← loadSequences F pad o s
        .ok (o.runs, seqs)
    let queries ← loadQueryLog stoiU32 (texts log)
    let as ← answerLog seqs (fun i ts => intersect ts runs c.parallel (env i)) 0 queries
    .ok (.done as (if c.out = [] then none else some (c.out, resultRows queries as)))

/-- `main` of `intersection_querylog_fastTrie` (tools/intersection_querylog_fastTrie.cpp:125-198). If the collection cannot be opened, the
number of sets is never initialised (line 54-55). -/
def mainQueryFast (B : BvIO) (K : Nat → RankIO) (pad : Nat) (junk : Nat → FastJunk) (env : Nat → Env) (fs : Files)
    (texts : Str → Option Str) (argv : List Str) : R QueryRun :=
  if argv.length < 3 then .ok .usage
  else do
    let c ← queryArgs true argv
    let sequences ← argGet argv 1
    let log ← argGet argv 2
    match fs sequences with
    | none => .error .uninit
    | some s => do
      let as ← queryFastText B K pad junk c.parallel env (texts log) s
      .ok (.done as none)

end CBT
