import Verif.Model.CommandLine
import Verif.Model.Report

/-!
# What the builders do to files

`build_tries` and `build_fastTries` with all their effects on files, and with the totals they print. In `Model/CommandLine` their result is
the file written, and every file can be written to.
-/

namespace CBT

/-- A file gets new contents. -/
def Files.put (fs : Files) (name : Str) (b : Bytes) : Files := fun n => if n = name then some b else fs n

/-- `buildCollection` with the names of its files (tools/build_tries.cpp:30-190, tools/build_fastTries.cpp:24-136); `build out s` is what
it does with the bytes `s` of its input, `out` whether there is an output file name. If a file cannot be opened (`none` or `writable`) it says
so and returns: `none`. The output is opened, and so emptied, before anything is read: if it is the input, the universe is read and used
without having been written (lines 50-53, 81 and 45-48, 77). The files after undefined behaviour are of no significance. -/
def buildOn (writable : Str → Bool) (fs : Files) (input out : Str) (build : Bool → Bytes → R (Bytes × BuildReport)) :
    Files × R (Option BuildReport) :=
  match fs input with
  | none => (fs, .ok none)
  | some s =>
    if out = [] then (fs, build false s >>= fun x => .ok (some x.2))
    else if writable out = false then (fs, .ok none)
    else if out = input then (fs.put out [], .error .uninit)
    else
      match build true s with
      | .error e => (fs.put out [], .error e)
      | .ok (f, r) => (fs.put out f, .ok (some r))

/-- `main` of `build_tries` (tools/build_tries.cpp:193-295). -/
def mainBuildTriesFiles (F : Formats) (pad : Nat) (ltr : Bool) (writable : Str → Bool) (fs : Files) (argv : List Str) :
    Files × R (Option BuildReport) :=
  match argGet argv 1 >>= fun input => buildArgs false argv >>= fun o => .ok (input, o) with
  | .error e => (fs, .error e)
  | .ok (input, o) =>
    buildOn writable fs input o.out fun out s => reportTries out F pad ltr o.minSize o.maxSize o.rank o.block o.runs o.levelwise s

/-- `main` of `build_fastTries` (tools/build_fastTries.cpp:139-246): nothing is done for other word sizes than 8, 16, 32 and 64. -/
def mainBuildFastFiles (B : BvIO) (K : Nat → RankIO) (pad : Nat) (junk : Nat → FastJunk) (writable : Str → Bool) (fs : Files)
    (argv : List Str) : Files × R (Option BuildReport) :=
  if argv.length < 3 then (fs, .ok none)
  else
    match argGet argv 1 >>= fun input => buildArgs true argv >>= fun o => .ok (input, o) with
    | .error e => (fs, .error e)
    | .ok (input, o) =>
      match wordLg o.wsize with
      | none => (fs, .ok none)
      | some lg =>
        buildOn writable fs input o.out fun out s => reportFile out o.minSize o.maxSize (fastFileHeader o.rank o.runs o.levelwise o.wsize)
          (reportFastTrie out B (K (if o.rank = 0 then 0 else 2)) lg pad junk o.runs) s

end CBT
