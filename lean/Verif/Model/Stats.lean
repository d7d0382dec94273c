import Verif.Model.Tools
import Verif.Model.Flat
import Verif.Model.Runs
import Verif.Model.Measures

/-!
# The tools that print statistics

`measures`, `classic_coders`, `pom` and `cbv_coding`; for their command lines see `Model/StatsMain`. Not modelled: the averages, which are
computed in floating point, and the sizes of the sdsl coders, which are parameters. Sums of integers and of `floor(log2(x)) + 1` go
through doubles and are taken to be exact, which they are below `2^53`.
-/

namespace CBT

/-! ## measures -/

/-- The totals of `main` (tools/measures.cpp:134-136). -/
structure Totals where
  gap : Nat
  rle : Nat
  trie : Nat
  trieRun : Nat
  nElements : Nat
  nSets : Nat
  deriving DecidableEq, Repr

/-- `Trie` (tools/measures.cpp:95-104). -/
def trieOf (pad : Nat) (v : List Nat) (u : Nat) (runs : Bool) : R Nat := do
  let t ← flatCtor v u
  let t ← if runs then t.encodeRuns pad else .ok t
  t.trieMeasure

/-- `delta` (tools/measures.cpp:163-168): a `uint32_t`, computed in 64 bits. -/
def deltaOf (u last first : Nat) : Nat :=
  if last = 0 then 2 ^ 32 - 1
  else
    let d := ((u + 2 ^ 64 - last) % 2 ^ 64 + first + 2 ^ 64 - 1) % 2 ^ 64 % 2 ^ 32
    if d = 0 then 1 else d

/-- One list (tools/measures.cpp:151-152, 162-178); `delta >= 0` is always true. -/
def measureList (pad u last : Nat) (s : List Nat) (t : Totals) : R (Totals × Nat) := do
  let first ← vGet s 0
  let g ← gapMeasure s
  let r ← rleMeasure s
  let m ← trieOf pad s u false
  let m' ← trieOf pad s u true
  let last' ← vGet s (s.length - 1)
  .ok ({ gap := (t.gap + g + logTerm (deltaOf u last first)) % 2 ^ 64, rle := (t.rle + r) % 2 ^ 64, trie := (t.trie + m) % 2 ^ 64,
         trieRun := (t.trieRun + m') % 2 ^ 64, nElements := (t.nElements + s.length) % 2 ^ 64, nSets := (t.nSets + 1) % 2 ^ 64 }, last')

/-- The loop of `main` (tools/measures.cpp:144-188). -/
def measuresLoop (pad minLength u : Nat) : (fuel : Nat) → Bytes → (last : Nat) → Totals → R Totals
  | 0, _, _, _ => .error .fuel
  | fuel + 1, s, last, t =>
    match readLE 4 s with
    | .error _ => .ok t
    | .ok (n, s) =>
      if minLength < n then do
        let (l, s) ← readInvList n s
        let (t, last) ← measureList pad u last l t
        measuresLoop pad minLength u fuel s last t
      else measuresLoop pad minLength u fuel (skipList s n) last t

/-- `main` of `measures` on an open file (tools/measures.cpp:134-188). -/
def measures (pad minLength : Nat) (s : Bytes) : R Totals := do
  let (_, s) ← readLE 4 s
  let (u, s) ← readLE 4 s
  measuresLoop pad minLength u (s.length + 1) s 0 ⟨0, 0, 0, 0, 0, 0⟩

/-! ## classic_coders, pom, cbv_coding -/

/-- An input stream: what remains, and the bits `eofbit` and `failbit`. -/
structure InStream where
  rest : Bytes
  eof : Bool
  fail : Bool

/-- `in.read(&v, 4)` into a `uint32_t` that holds `old` (`none` if indeterminate): a stream that is not good fails and leaves it;
otherwise, if fewer than four bytes remain, these are stored and both bits are set (tools/classic_coders.cpp:60, 61, 66, 73,
tools/pom.cpp:80, 81, 86, 95, tools/cbv_coding.cpp:59, 60, 67, 74). -/
def InStream.read4 (s : InStream) (old : Option Nat) : Option Nat × InStream :=
  if s.eof || s.fail then (old, { s with fail := true })
  else match readLE 4 s.rest with
    | .ok (v, r) => (some v, { s with rest := r })
    | .error _ =>
      (old.map fun o => (s.rest ++ (leBytes 4 o).drop s.rest.length).foldr (fun b n => b.toNat + 256 * n) 0, ⟨[], true, true⟩)

/-- `in.seekg(k, ios::cur)` (tools/classic_coders.cpp:95, tools/pom.cpp:127): clears `eofbit`; moves unless `failbit` is set. `k` is
`4*n`, a `uint32_t`. -/
def InStream.seek (s : InStream) (n : Nat) : InStream :=
  if s.fail then { s with eof := false } else { s with eof := false, rest := skipList s.rest n }

/-- The loop reading a list (tools/classic_coders.cpp:72-75, tools/pom.cpp:94-106, tools/cbv_coding.cpp:73-76); `x` is the variable
declared outside. -/
def readVals : (n : Nat) → InStream → (x : Option Nat) → R (List Nat × Option Nat × InStream)
  | 0, s, x => .ok ([], x, s)
  | n + 1, s, x =>
    match s.read4 x with
    | (none, _) => .error .uninit
    | (some v, s) => do
      let (l, x, s) ← readVals n s (some v)
      .ok (v :: l, x, s)

/-- The loop of `main` of `classic_coders` (tools/classic_coders.cpp:62-99), `pom` (tools/pom.cpp:82-131) and, with `stop`, `cbv_coding`
(tools/cbv_coding.cpp:63-93), whose `else` branch leaves the loop. `eof` is tested before the length is read. `step` does the work for
one list. -/
def statsLoop {A : Type} (stop : Bool) (minLength : Nat) (step : A → List Nat → R A) :
    (fuel : Nat) → InStream → (n x : Option Nat) → A → R A
  | 0, _, _, _, _ => .error .fuel
  | fuel + 1, s, n, x, a =>
    if s.eof then .ok a
    else match s.read4 n with
      | (none, _) => .error .uninit
      | (some n, s) =>
        if minLength < n then do
          let (l, x, s) ← readVals n s x
          let a ← step a l
          statsLoop stop minLength step fuel s (some n) x a
        else if stop then .ok a
        else statsLoop stop minLength step fuel (s.seek n) (some n) x a

/-- What the three tools count, with the sum of sizes a coder gives (tools/classic_coders.cpp:55-56, 68-69, 85-87,
tools/cbv_coding.cpp:54-55, 69-70, 84). -/
structure Counts where
  nElements : Nat
  nSets : Nat
  size : Nat
  deriving DecidableEq, Repr

/-- What `classic_coders` and `cbv_coding` add for one list; `coder` is the size in bytes of the encoded list. -/
def countStep (coder : List Nat → Nat) (a : Counts) (l : List Nat) : R Counts :=
  .ok { nElements := (a.nElements + l.length) % 2 ^ 64, nSets := (a.nSets + 1) % 2 ^ 64, size := (a.size + coder l) % 2 ^ 64 }

/-- One list of `classic_coders` and, with `stop`, of `cbv_coding`, which makes a bit vector that has room for the last element and sets a bit
for every element (tools/cbv_coding.cpp:77-81), so none may be larger than the last. -/
def coderStep (stop : Bool) (coder : List Nat → Nat) (a : Counts) (l : List Nat) : R Counts :=
  if stop && l.any (fun x => decide (l.getLastD 0 < x)) then .error .oob else countStep coder a l

/-- `classic_coders` (tools/classic_coders.cpp:55-99) for one of its coders, and `cbv_coding` (tools/cbv_coding.cpp:54-93) with `stop`, on
a stream; the first two numbers are not used further, but `cbv_coding` prints both (lines 61-62). -/
def codersOn (stop : Bool) (minLength : Nat) (coder : List Nat → Nat) (fuel : Nat) (s : InStream) : R Counts :=
  let (v, s) := s.read4 none
  let (w, s) := s.read4 none
  if stop && (v.isNone || w.isNone) then .error .uninit
  else statsLoop stop minLength (coderStep stop coder) fuel s none none ⟨0, 0, 0⟩

/-- The same on an open file. -/
def coders (stop : Bool) (minLength : Nat) (coder : List Nat → Nat) (fuel : Nat) (s : Bytes) : R Counts :=
  codersOn stop minLength coder fuel ⟨s, false, false⟩

/-- `(uint64_t)(2*floor(log2(x)) + 1)` (tools/pom.cpp:99, 104): for 0 minus infinity is converted. -/
def gammaBits (x : Nat) : R Nat := if x = 0 then .error .conv else .ok (2 * Nat.log2 x + 1)

/-- The suffixes of a list and the sum of their sizes (tools/pom.cpp:94-106); `prev` is `s[i-1]`. -/
def pomList : (prev : Option Nat) → List Nat → R (List Nat × Nat)
  | _, [] => .ok ([], 0)
  | prev, x :: xs => do
    let xp ← match prev with
      | none => (.ok x : R Nat)
      | some y => prefixOf x y 64
    let b ← gammaBits xp
    let (sp, bits) ← pomList (some x) xs
    .ok (xp :: sp, b + bits)

/-- What `pom` counts: as the others, and `size_in_bits` (tools/pom.cpp:74-79). -/
structure PomCounts where
  nElements : Nat
  nSets : Nat
  sizeInBits : Nat
  size : Nat
  deriving DecidableEq, Repr

/-- One list of `pom` (tools/pom.cpp:88-120): the coder gets the sorted suffixes. -/
def pomStep (coder : List Nat → Nat) (a : PomCounts) (l : List Nat) : R PomCounts := do
  let (sp, bits) ← pomList none l
  .ok { nElements := (a.nElements + l.length) % 2 ^ 64, nSets := (a.nSets + 1) % 2 ^ 64,
        sizeInBits := (a.sizeInBits + bits) % 2 ^ 64, size := (a.size + coder (sortIds sp)) % 2 ^ 64 }

/-- `pom` for one of its coders, on a stream (tools/pom.cpp:74-131). -/
def pomOn (minLength : Nat) (coder : List Nat → Nat) (fuel : Nat) (s : InStream) : R PomCounts :=
  let (_, s) := s.read4 none
  let (_, s) := s.read4 none
  statsLoop false minLength (pomStep coder) fuel s none none ⟨0, 0, 0, 0⟩

/-- The same on an open file. -/
def pom (minLength : Nat) (coder : List Nat → Nat) (fuel : Nat) (s : Bytes) : R PomCounts :=
  pomOn minLength coder fuel ⟨s, false, false⟩

end CBT
