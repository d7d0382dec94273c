import Verif.Model.CommandLine

/-!
# The text of the results file

`intersection_query_log` with all its effects on text files. In `Model/CommandLine` its results file is a list of numbers.
-/

namespace CBT

/-- The text files. -/
abbrev Texts := Str → Option Str

/-- A file gets new contents. -/
def Texts.put (texts : Texts) (name text : Str) : Texts := fun n => if n = name then some text else texts n

/-- The first line (tools/intersection_query_log.cpp:115). -/
def resultsHeader : Str := "elements_per_query,time execution,size_intersection\n".toList

/-- The line of a query (tools/intersection_query_log.cpp:148-150); `time` is the average time as printed. -/
def resultsLine (time : Str) (sets size : Nat) : Str :=
  Nat.toDigits 10 sets ++ ',' :: (time ++ ',' :: (Nat.toDigits 10 size ++ ['\n']))

/-- All queries, in order, with the lines that have been written when the loop ends in whatever way; `endl` flushes every line
(tools/intersection_query_log.cpp:130-159). -/
def answerWriting (seqs : List Nav) (inter : Nat → List Nav → R (List Nat)) (time : Nat → Str) : (i : Nat) → (queries : List (List Nat)) →
    Str × R (List (Option (List Nat)))
  | _, [] => ([], .ok [])
  | i, q :: qs =>
    match getAll seqs q with
    | .error e => ([], .error e)
    | .ok ts =>
      if ts.length ≤ 16 then
        match inter i ts with
        | .error e => ([], .error e)
        | .ok r =>
          let rest := answerWriting seqs inter time (i + 1) qs
          (resultsLine (time i) ts.length r.length ++ rest.1, rest.2 >>= fun as => .ok (some r :: as))
      else
        let rest := answerWriting seqs inter time (i + 1) qs
        (rest.1, rest.2 >>= fun as => .ok (none :: as))

/-- The part of `main` after the collection has been opened and its header read, that is `performIntersections`
(tools/intersection_query_log.cpp:109-168): the results file is opened, which empties it, and gets its first line before the
collection and the log are read. If it cannot be opened (`writable`), nothing is written, and the tool goes on. Not modelled: a results
file that is the collection. The files after undefined behaviour are of no significance. -/
def performFiles (load : R (List Nav)) (inter : Nat → List Nav → R (List Nat)) (time : Nat → Str) (writable : Str → Bool) (texts : Texts)
    (log out : Str) : Texts × R (List (Option (List Nat))) :=
  let opened := decide (out ≠ []) && writable out
  let texts₁ := if opened then texts.put out resultsHeader else texts
  match load with
  | .error e => (texts₁, .error e)
  | .ok seqs =>
    match loadQueryLog stoiU32 (texts₁ log) with
    | .error e => (texts₁, .error e)
    | .ok queries =>
      let rest := answerWriting seqs inter time 0 queries
      (if opened then texts.put out (resultsHeader ++ rest.1) else texts₁, rest.2)

/-- What `main` of `intersection_query_log` does before `performIntersections` (tools/intersection_query_log.cpp:171-226): `none` with too
few arguments; otherwise the name of the log, the settings, the run option of the collection, and what loading the tries will give. -/
def queryLogStart (F : Formats) (pad : Nat) (fs : Files) (argv : List Str) : R (Option (Str × QuerySettings × Bool × R (List Nav))) :=
  if argv.length < 3 then .ok none
  else do
    let sequences ← argGet argv 1
    let log ← argGet argv 2
    let c ← queryArgs false argv
    match fs sequences with
    | none => .ok (some (log, c, false, .ok []))
    | some s => do
      let (o, s) ← readTriesFileHeader s
      .ok (some (log, c, o.runs, loadSequences F pad o s))

/-- `main` of `intersection_query_log` (tools/intersection_query_log.cpp:171-231): the text files after the run, and the answers (`none`
with too few arguments). -/
def mainQueryLogFiles (F : Formats) (pad : Nat) (env : Nat → Env) (time : Nat → Str) (writable : Str → Bool) (fs : Files) (texts : Texts)
    (argv : List Str) : Texts × R (Option (List (Option (List Nat)))) :=
  match queryLogStart F pad fs argv with
  | .error e => (texts, .error e)
  | .ok none => (texts, .ok none)
  | .ok (some (log, c, runs, load)) =>
    let r := performFiles load (fun i ts => intersect ts runs c.parallel (env i)) time writable texts log c.out
    (r.1, r.2 >>= fun as => .ok (some as))

end CBT
