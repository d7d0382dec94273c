import Verif.Model.CommandLine

/-!
# Specifications for the command line

The options of the tools, how they are written, and what they set. Later options override earlier ones.
-/

namespace CBT.Spec

/-- The options of the builders. -/
inductive BuildOption
  | minSize (n : Nat)
  | maxSize (n : Nat)
  | rankV
  | rankIl (block : Nat)
  | rankV5
  | runs (b : Bool)
  | levelwise (b : Bool)
  | out (name : List Char)
  | wsize (w : Nat)
  | verbose

/-- `t` or `f`. -/
def flagWord (b : Bool) : List Char := if b then ['t'] else ['f']

/-- How an option is written; `--verbose` of `build_tries` has a value. -/
def BuildOption.words (fast : Bool) : BuildOption → List (List Char)
  | .minSize n => ["--min_size".toList, Nat.toDigits 10 n]
  | .maxSize n => ["--max_size".toList, Nat.toDigits 10 n]
  | .rankV => ["--rank".toList, "v".toList]
  | .rankIl b => ["--rank".toList, "il".toList, Nat.toDigits 10 b]
  | .rankV5 => ["--rank".toList, "v5".toList]
  | .runs b => ["--runs".toList, flagWord b]
  | .levelwise b => ["--levelwise".toList, flagWord b]
  | .out name => ["--out".toList, name]
  | .wsize w => ["--wsize".toList, Nat.toDigits 10 w]
  | .verbose => if fast then ["--verbose".toList] else ["--verbose".toList, flagWord true]

/-- What an option sets. -/
def BuildOption.apply (s : BuildSettings) : BuildOption → BuildSettings
  | .minSize n => { s with minSize := n }
  | .maxSize n => { s with maxSize := n }
  | .rankV => { s with rank := 0 }
  | .rankIl b => { s with rank := 1, block := b }
  | .rankV5 => { s with rank := 2 }
  | .runs b => { s with runs := b }
  | .levelwise b => { s with levelwise := b }
  | .out name => { s with out := name }
  | .wsize w => { s with wsize := w }
  | .verbose => { s with verbose := true }

/-- The options with meaningful values: numbers in range, `--wsize` for `build_fastTries` only, and no output file named like an
option. -/
def BuildOption.Ok (fast : Bool) : BuildOption → Prop
  | .minSize n | .maxSize n => n < 2 ^ 64
  | .rankIl b => b < 2 ^ 31
  | .wsize w => fast = true ∧ w < 2 ^ 16
  | .out name => name ≠ "--levelwise".toList ∧ name ≠ "--wsize".toList ∧ name ≠ "--verbose".toList
  | _ => True

/-- The arguments of the query tools: a file name, or an option. -/
inductive QueryOption
  | file (name : List Char)
  | parallel (b : Bool)
  | out (name : List Char)
  | verbose

/-- How an argument is written. -/
def QueryOption.words (fast : Bool) : QueryOption → List (List Char)
  | .file name => [name]
  | .parallel b => ["--parallel".toList, flagWord b]
  | .out name => ["--out".toList, name]
  | .verbose => if fast then ["--verbose".toList] else ["--verbose".toList, flagWord true]

/-- What an argument sets. -/
def QueryOption.apply (s : QuerySettings) : QueryOption → QuerySettings
  | .file _ => s
  | .parallel b => { s with parallel := b }
  | .out name => { s with out := name }
  | .verbose => { s with verbose := true }

/-- No file named like an option; `--out` for `intersection_query_log` only. -/
def QueryOption.Ok (fast : Bool) : QueryOption → Prop
  | .file name => name ≠ "--out".toList ∧ name ≠ "--verbose".toList ∧ name ≠ "--parallel".toList
  | .out name => fast = false ∧ name ≠ "--verbose".toList ∧ name ≠ "--parallel".toList
  | _ => True

/-- An option whose value should be a number, written with a word that is none. -/
inductive BadOption
  | good (o : BuildOption)
  | wsize (word : List Char)
  | rankIl (word : List Char)

/-- How it is written. -/
def BadOption.words (fast : Bool) : BadOption → List (List Char)
  | .good o => o.words fast
  | .wsize w => ["--wsize".toList, w]
  | .rankIl w => ["--rank".toList, "il".toList, w]

/-- What it sets. -/
def BadOption.apply (s : BuildSettings) : BadOption → BuildSettings
  | .good o => o.apply s
  | .wsize _ => { s with wsize := 0 }
  | .rankIl _ => { s with rank := 1, block := 0 }

/-- The word begins with a character that cannot begin a number. -/
def noNumber (w : List Char) : Prop :=
  ∃ c r, w = c :: r ∧ c ∉ [' ', '\t', '\n', '\r', Char.ofNat 11, Char.ofNat 12, '+', '-', '0', '1', '2', '3', '4', '5', '6', '7', '8', '9']

/-- `--wsize` for `build_fastTries` only. -/
def BadOption.Ok (fast : Bool) : BadOption → Prop
  | .good o => o.Ok fast
  | .wsize w => fast = true ∧ noNumber w
  | .rankIl w => noNumber w

end CBT.Spec
