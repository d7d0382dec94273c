import Verif.SpecArgs

/-!
# The command lines of the experiment scripts

`prog` is the name a program is called with; `../build/tools/build` in the scripts stands for `build_tries`, `../build/tools/queries` for
`intersection_query_log`.
-/

namespace CBT.Spec

/-- The values the scripts give `--rank` for `build_tries`. -/
def scriptRanks : List (List (List Char)) := [["v".toList], ["v5".toList], ["il".toList, "512".toList]]

/-- The values the scripts give `--rank` for `build_fastTries`. -/
def scriptFastRanks : List (List Char) := ["v".toList, "v5".toList]

/-- The values the scripts give `--wsize`. -/
def scriptSizes : List (List Char) := ["64".toList, "32".toList, "16".toList, "8".toList]

/-- scripts/build_tries.sh. -/
def scriptBuild (prog input : List Char) (rank : List (List Char)) (runs : Bool) (out : List Char) : List (List Char) :=
  [prog, input, "--min_size".toList, "4096".toList, "--max_size".toList, "15000".toList, "--rank".toList] ++ rank ++
    ["--runs".toList, flagWord runs, "--out".toList, out]

/-- scripts/build_fastTries.sh. -/
def scriptFastBuild (prog input rank : List Char) (runs : Bool) (wsize out : List Char) : List (List Char) :=
  [prog, input, "--min_size".toList, "1".toList, "--rank".toList, rank, "--runs".toList, flagWord runs, "--wsize".toList, wsize,
    "--out".toList, out]

/-- The values scripts/test_encoding.sh gives `--rank`. -/
def checkRanks : List (List (List Char)) :=
  [["v".toList], ["v5".toList], ["il".toList, "128".toList], ["il".toList, "256".toList], ["il".toList, "512".toList]]

/-- scripts/test_encoding.sh. -/
def scriptCheck (prog input : List Char) (rank : List (List Char)) (runs levelwise : Bool) : List (List Char) :=
  [prog, input, "--min_size".toList, "4096".toList, "--rank".toList] ++ rank ++
    ["--runs".toList, flagWord runs, "--levelwise".toList, flagWord levelwise]

/-- scripts/spaceFastTries.sh. -/
def scriptSpace (prog input rank : List Char) (runs : Bool) (wsize : List Char) : List (List Char) :=
  [prog, input, "--min_size".toList, "1".toList, "--rank".toList, rank, "--runs".toList, flagWord runs, "--wsize".toList, wsize]

/-- scripts/run_singlethread_queries_flatTries.sh, scripts/run_multithread_queries_flatTries.sh and the two for fast tries. -/
def scriptQueries (prog file log : List Char) (parallel : Bool) : List (List Char) :=
  [prog, file, log, "--parallel".toList, flagWord parallel]

/-- A name of a file that is not an option of a query tool. -/
def plainName (name : List Char) : Prop := name ≠ "--out".toList ∧ name ≠ "--verbose".toList ∧ name ≠ "--parallel".toList

end CBT.Spec
