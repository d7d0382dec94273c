import Verif.Model.CommandLine
import Verif.Model.Memory

/-!
# The query tools with their ten calls for every query

The models of the query tools (Verif/Model/Tools.lean, ToolsTries.lean, QueryText.lean, CommandLine.lean) make one call of `Intersect` for
every query. The tools make ten, each with its own threads, and keep what the last one returns.
-/

namespace CBT

/-- The calls `f 0`, ..., `f n`; the value is that of the last one (tools/intersection_query_log.cpp:137-146,
tools/intersection_querylog_fastTrie.cpp:100-108). -/
def repeated {α : Type} (f : Nat → R α) : (n : Nat) → R α
  | 0 => f 0
  | n + 1 => do
    let _ ← repeated f n
    f (n + 1)

/-- `main` of `intersection_query_log` (tools/intersection_query_log.cpp:109-168, 171-231); `env i r` is the environment of the `r`-th call
for the `i`-th query. `trep` is 10 (line 111). -/
def mainQueryLogTen (F : Formats) (pad : Nat) (env : Nat → Nat → Env) (fs : Files) (texts : Str → Option Str) (argv : List Str) :
    R QueryRun :=
  if argv.length < 3 then .ok .usage
  else do
    let sequences ← argGet argv 1
    let log ← argGet argv 2
    let c ← queryArgs false argv
    let (runs, seqs) ← match fs sequences with
      | none => (.ok (false, []) : R (Bool × List Nav))
      | some s => do
        let (o, s) ← readTriesFileHeader s
        let seqs ← loadSequences F pad o s
        .ok (o.runs, seqs)
    let queries ← loadQueryLog stoiU32 (texts log)
    let as ← answerLog seqs (fun i ts => repeated (fun r => intersect ts runs c.parallel (env i r)) 9) 0 queries
    .ok (.done as (if c.out = [] then none else some (c.out, resultRows queries as)))

/-- `main` of `intersection_querylog_fastTrie` (tools/intersection_querylog_fastTrie.cpp:77-122, 125-198). -/
def mainQueryFastTen (B : BvIO) (K : Nat → RankIO) (pad : Nat) (junk : Nat → FastJunk) (env : Nat → Nat → Env) (fs : Files)
    (texts : Str → Option Str) (argv : List Str) : R QueryRun :=
  if argv.length < 3 then .ok .usage
  else do
    let c ← queryArgs true argv
    let sequences ← argGet argv 1
    let log ← argGet argv 2
    match fs sequences with
    | none => .error .uninit
    | some s => do
      let (o, s) ← readFastFileHeader s
      let lg := queryLg o.wsize
      let queries ← loadQueryLog stoull (texts log)
      let m ← loadTriesFast B (K (if o.rank = 0 then 0 else 2)) lg junk queries s
      let as ← answerAll m (fun i ts => repeated (fun r => fastIntersect lg (ts.map fun t => t.nav pad) o.runs c.parallel (env i r)) 9)
        0 queries
      .ok (.done as none)

/-- `nq` (tools/intersection_query_log.cpp:128, 154, 165, tools/intersection_querylog_fastTrie.cpp:89, 109, 119): the number of queries
printed at the end. -/
def queriesDone (as : List (Option (List Nat))) : Nat := as.countP Option.isSome

/-- The arrays left allocated by the calls `f 0`, ..., `f n`. -/
def repeatedLive (f : Nat → R (List Nat × Heap)) : (n : Nat) → R Nat
  | 0 => do
    let (_, H) ← f 0
    .ok H.live
  | n + 1 => do
    let k ← repeatedLive f n
    let (_, H) ← f (n + 1)
    .ok (k + H.live)

/-- The arrays that the calls of `Intersect` have left allocated after the queries (tools/intersection_query_log.cpp:130-159). -/
def logLive (seqs : List Nav) (runs parallel : Bool) (env : Nat → Nat → Env) : (i : Nat) → (queries : List (List Nat)) → R Nat
  | _, [] => .ok 0
  | i, q :: qs => do
    let ts ← getAll seqs q
    let k ← if ts.length ≤ 16 then repeatedLive (fun r => memIntersect ts runs parallel (env i r)) 9 else pure 0
    let ks ← logLive seqs runs parallel env (i + 1) qs
    .ok (k + ks)

end CBT
