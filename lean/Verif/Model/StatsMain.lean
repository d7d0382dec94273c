import Verif.Model.Stats
import Verif.Model.CommandLine

/-!
# The `main` functions of the tools that print statistics
-/

namespace CBT

def sMinLength : Str := ['-', '-', 'm', 'i', 'n', '_', 'l', 'e', 'n', 'g', 't', 'h']

/-- tools/measures.cpp:122-125, tools/classic_coders.cpp:43-46, tools/pom.cpp:62-65, tools/cbv_coding.cpp:42-45. -/
def actMinLength (argv : List Str) (_ : Nat) (i : Nat) : R (Nat × Nat) := do
  let a ← argGet argv i
  let n ← stoull a
  .ok (n, i)

/-- The loop over the options, which starts with the name of the program (tools/measures.cpp:121-126, tools/classic_coders.cpp:42-47,
tools/pom.cpp:61-66, tools/cbv_coding.cpp:41-46). -/
def statsArgs (argv : List Str) : R Nat :=
  argLoop (clause argv sMinLength (actMinLength argv)) argv.length (argv.length + 1) (0, 0)

/-- `in.open(collection, …)`: if that is not possible, `failbit` is set (and a message printed); nobody stops because of it
(tools/measures.cpp:128-132, tools/classic_coders.cpp:49-53, tools/pom.cpp:68-72, tools/cbv_coding.cpp:48-52). -/
def openStream : Option Bytes → InStream
  | none => ⟨[], false, true⟩
  | some s => ⟨s, false, false⟩

/-- `main` of `measures` (tools/measures.cpp:107-197); `none` if it prints how to use it. If the file cannot be opened, the universe is
printed all the same, a variable without a value (lines 139-142). -/
def mainMeasures (pad : Nat) (fs : Files) (argv : List Str) : R (Option Totals) :=
  if argv.length < 2 then .ok none
  else do
    let collection ← argGet argv 1
    let m ← statsArgs argv
    match fs collection with
    | none => .error .uninit
    | some s => do
      let t ← measures pad m s
      .ok (some t)

/-- `main` of `classic_coders` (tools/classic_coders.cpp:28-106) and, with `stop`, of `cbv_coding` (tools/cbv_coding.cpp:27-100). -/
def mainCoders (stop : Bool) (coder : List Nat → Nat) (fuel : Nat) (fs : Files) (argv : List Str) : R (Option Counts) :=
  if argv.length < 2 then .ok none
  else do
    let collection ← argGet argv 1
    let m ← statsArgs argv
    let t ← codersOn stop m coder fuel (openStream (fs collection))
    .ok (some t)

/-- `main` of `pom` (tools/pom.cpp:47-139). -/
def mainPom (coder : List Nat → Nat) (fuel : Nat) (fs : Files) (argv : List Str) : R (Option PomCounts) :=
  if argv.length < 2 then .ok none
  else do
    let collection ← argGet argv 1
    let m ← statsArgs argv
    let t ← pomOn m coder fuel (openStream (fs collection))
    .ok (some t)

end CBT
