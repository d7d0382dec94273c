import Verif.Model.Intersect

/-!
# `parallel_for` on macOS

The header that src/intersection.cpp:16 and src/fastTrieIntersection.cpp:12 include when not on Linux. It divides the work as the other
one does, and sets the processor of each thread with its own version of `cpu_set_t`.
-/

namespace CBT

/-- `CPU_SET` (include/parallel_for_macos.hpp:35-36): `1 << num` on a 32-bit `int`, or'ed into a `uint32_t`. Shifting by 31 gives the
sign bit, as CWG 1457 says for C++14. -/
def cpuSet (num cs : Nat) : R Nat := if 32 ≤ num then .error .shift else .ok (cs ||| 2 ^ num)

/-- `CPU_ISSET` (include/parallel_for_macos.hpp:38-39). -/
def cpuIsSet (num cs : Nat) : R Bool := if 32 ≤ num then .error .shift else .ok (cs &&& 2 ^ num != 0)

/-- The loop of `pthread_setaffinity_np` (include/parallel_for_macos.hpp:64-66), `n` iterations left. -/
def findCore (cs : Nat) : (n core : Nat) → R Nat
  | 0, core => .ok core
  | n + 1, core => do
    if ← cpuIsSet core cs then .ok core else findCore cs n (core + 1)

/-- `pthread_setaffinity_np(thread, sizeof(cpu_set_t), cs)` (include/parallel_for_macos.hpp:58-73): the processor asked for. The set
has 4 bytes. -/
def setAffinity (cs : Nat) : R Nat := findCore cs (8 * 4) 0

/-- Setting the processor of thread `i` (include/parallel_for_macos.hpp:102-106); `THREADS_BY_CORE` is 1 (lines 11-12). -/
def pinThread (i : Nat) : R Nat := do
  let cs ← cpuSet (i / 1) 0
  setAffinity cs

/-- `parallel_for` (include/parallel_for_macos.hpp:76-131). The processors are set while the first threads already run. They change
nothing but the undefined behaviour, which is of the whole program, so the order does not matter. -/
def macParallelFor {α σ : Type} (act : α → σ → R σ) (sched : List Nat) (nb k : Nat) (body : Nat → R (List α)) (s : σ) :
    R σ := do
  let chunks ← parallelChunks nb k
  let _ ← (List.range k).mapM pinThread
  let progs ← chunks.mapM fun c => do
    let bs ← (chunkIndices c).mapM body
    pure bs.flatten
  interleave act sched progs s

/-- Collecting the threads' results (src/intersection.cpp:392-419, src/fastTrieIntersection.cpp:416-443). -/
def macGather (sched : List Nat) (inter : List Nat) (results : List (List Nat)) (used : Nat) : R (List Nat) :=
  let outSize := inter.length + (results.map List.length).sum
  let shifts := shiftsOf results inter.length
  if outSize > 450000 then
    macParallelFor actWrite sched used used
      (fun t => do
        let v ← vGet results t
        let sh ← vGet shifts t
        pure ((List.range v.length).zip v |>.map fun jx => (jx.1 + sh, jx.2)))
      (inter ++ List.replicate (outSize - inter.length) 0)
  else .ok (inter ++ results.flatten)

/-- `Intersect` after the check of the heights (src/intersection.cpp:313-435, src/fastTrieIntersection.cpp:336-459), with this
`parallel_for`. -/
def macBody (Ts : List Nav) (c : Cfg) (height : Nat) (runs parallel : Bool) (env : Env) : R (List Nat) := do
  let active := List.replicate 16 true
  let roots := List.replicate 16 (some 0)
  if env.hw = 0 then .error .conv
  let cut := Nat.log2 env.hw
  let nThreads := 2 ^ cut
  if parallel ∧ cut ≤ (height + 2 ^ 64 - 2) % 2 ^ 64 then
    let s ← partialAND Ts c runs cut 0 roots active 0 { r := [], tasks := [] }
    if s.tasks.length = 0 then .ok s.r
    else
      let total := s.tasks.length % 2 ^ 16
      let (rest, used, s) ← fillThreads Ts c runs cut nThreads total (s.tasks.take total) 0 total
        { s with tasks := [] }
      let next := s.tasks ++ rest
      let levels := List.replicate s.tasks.length (cut + 1) ++ List.replicate rest.length cut
      if next.length = 0 then .ok s.r
      else
        let results ← macParallelFor actPush env.sched1 used used
          (fun t => do
            let task ← vGet next t
            let level ← vGet levels t
            let out ← if runs then runsAND Ts c (c.stop - level) level task.roots task.active task.part []
                      else AND Ts c (c.stop - level) level task.roots task.part []
            pure (out.map fun x => (t, x)))
          (List.replicate used [])
        macGather env.sched2 s.r results used
  else if runs then runsAND Ts c c.stop 0 roots active 0 []
  else AND Ts c c.stop 0 roots 0 []

/-- `Intersect` (src/intersection.cpp:305-435). -/
def macIntersect (Ts : List Nav) (runs parallel : Bool) (env : Env) : R (List Nat) :=
  match Ts with
  | [] => .error .oob
  | T0 :: _ =>
    if Ts.any (fun T => T.height ≠ T0.height) then .ok []
    else macBody Ts (flatCfg T0.height) T0.height runs parallel env

/-- `Intersect` (src/fastTrieIntersection.cpp:328-459). -/
def macFastIntersect (lg : Nat) (Ts : List FNav) (runs parallel : Bool) (env : Env) : R (List Nat) :=
  match Ts with
  | [] => .error .oob
  | T0 :: _ =>
    if Ts.any (fun T => T.height ≠ T0.height) then .ok []
    else if T0.height = 0 then .error .uninit
    else macBody (Ts.map FNav.toNav) (fastCfg lg Ts T0.height) T0.height runs parallel env

end CBT
