import Verif.Model.ToolsTries

/-!
# The text of the query logs

A text file is a list of characters. Numbers are read with `std::stoi` and `std::stoull`, whose exceptions nobody catches.
-/

namespace CBT

/-- A string, or the contents of a text file. -/
abbrev Str := List Char

/-- `std::isspace` in the C locale: what `iss >> s` and `strtol` skip (tools/intersection_query_log.cpp:98,
tools/intersection_querylog_fastTrie.cpp:34). The codes 11 and 12 are vertical tab and form feed. -/
def isSpace (c : Char) : Bool := c == ' ' || c == '\t' || c == '\n' || c == '\r' || c.toNat == 11 || c.toNat == 12

/-- The lines that `while (getline(in, line))` sees (tools/intersection_query_log.cpp:94, tools/intersection_querylog_fastTrie.cpp:31):
a newline ends a line, and the last line needs none. -/
def textLines : Str → List Str
  | [] => []
  | c :: s =>
    if c = '\n' then [] :: textLines s
    else match textLines s with
      | [] => [[c]]
      | l :: ls => (c :: l) :: ls

/-- The strings that `for (string s; iss >> s;)` sees (tools/intersection_query_log.cpp:97-98,
tools/intersection_querylog_fastTrie.cpp:33-34); `cur` is what has been read of the current one. -/
def tokensFrom (cur : Str) : Str → List Str
  | [] => if cur = [] then [] else [cur]
  | c :: s =>
    if isSpace c then (if cur = [] then tokensFrom [] s else cur :: tokensFrom [] s)
    else tokensFrom (cur ++ [c]) s

/-- All strings of a line. -/
def tokens (line : Str) : List Str := tokensFrom [] line

/-- The value of decimal digits, most significant first (within `strtol` and `strtoull`). -/
def digitsVal (s : Str) : Nat := s.foldl (fun a c => 10 * a + (c.toNat - 48)) 0

/-- The sign and the digits that `strtol` and `strtoull` recognise in base 10: blanks and one sign are skipped, then as many digits
as there are; what follows is ignored. `none` if there is no digit. -/
def scanNumber (s : Str) : Option (Bool × Nat) :=
  let (neg, r) := match s.dropWhile isSpace with
    | [] => (false, [])
    | c :: r => if c = '-' then (true, r) else if c = '+' then (false, r) else (false, c :: r)
  let ds := r.takeWhile Char.isDigit
  if ds = [] then none else some (neg, digitsVal ds)

/-- `(uint32_t)stoi(s)` (tools/intersection_query_log.cpp:99): throws if there is no number or if it is not an `int`; negative
numbers wrap around. -/
def stoiU32 (s : Str) : R Nat :=
  match scanNumber s with
  | none => .error .exc
  | some (false, m) => if m < 2 ^ 31 then .ok m else .error .exc
  | some (true, m) => if m ≤ 2 ^ 31 then .ok ((2 ^ 32 - m) % 2 ^ 32) else .error .exc

/-- `stoull(s)` (tools/intersection_querylog_fastTrie.cpp:35, tools/build_tries.cpp:219, 223, tools/build_fastTries.cpp:168, 172):
throws if there is no number or if it has more than 64 bits; the result is negated, modulo `2^64`, after a minus sign. -/
def stoull (s : Str) : R Nat :=
  match scanNumber s with
  | none => .error .exc
  | some (neg, m) => if m < 2 ^ 64 then .ok (if neg then (2 ^ 64 - m) % 2 ^ 64 else m) else .error .exc

/-- A function applied to all elements, in order. -/
def mapR {α β : Type} (f : α → R β) : List α → R (List β)
  | [] => .ok []
  | a :: l => do
    let b ← f a
    let bs ← mapR f l
    .ok (b :: bs)

/-- `loadQueryLog` (tools/intersection_query_log.cpp:86-106, tools/intersection_querylog_fastTrie.cpp:23-42); `none` is a file
that cannot be opened. -/
def loadQueryLog (number : Str → R Nat) : (file : Option Str) → R (List (List Nat))
  | none => .ok []
  | some text => mapR (fun line => mapR number (tokens line)) (textLines text)

/-- The query tool for `build_tries` on the text of the query log (tools/intersection_query_log.cpp:109-159, 212-228): the tries
are loaded before the queries. -/
def queryLogText (F : Formats) (pad : Nat) (parallel : Bool) (env : Nat → Env) (text : Option Str) (s : Bytes) :
    R (List (Option (List Nat))) := do
  let (o, s) ← readTriesFileHeader s
  let seqs ← loadSequences F pad o s
  let queries ← loadQueryLog stoiU32 text
  answerLog seqs (fun i ts => intersect ts o.runs parallel (env i)) 0 queries

/-- The query tool for `build_fastTries` on the text of the query log (tools/intersection_querylog_fastTrie.cpp:77-122, 149-195):
the queries are loaded before the tries. -/
def queryFastText (B : BvIO) (K : Nat → RankIO) (pad : Nat) (junk : Nat → FastJunk) (parallel : Bool) (env : Nat → Env)
    (text : Option Str) (s : Bytes) : R (List (Option (List Nat))) := do
  let (o, s) ← readFastFileHeader s
  let lg := queryLg o.wsize
  let queries ← loadQueryLog stoull text
  let m ← loadTriesFast B (K (if o.rank = 0 then 0 else 2)) lg junk queries s
  answerAll m (fun i ts => fastIntersect lg (ts.map fun t => t.nav pad) o.runs parallel (env i)) 0 queries

end CBT
