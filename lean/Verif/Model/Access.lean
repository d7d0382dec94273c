import Verif.Model.Intersect

/-!
# The memory accesses of the parallel sections of `Intersect`

The functions that run in several threads, with the shared locations they touch. Arrays on the stack of a thread (`leftNodes`,
`rightNodes`, `tempActiveTries`) are not shared and not listed. Simplification: the accesses are a superset in that a loop over the
tries is taken to touch all of them, and that the end of the recursion is taken to write and to look at the words of the tries.
Contract: `getNode`, `getLeftChild`, `getRightChild`, `getWord` and sdsl's rank only read (include/flatBinTrie.hpp:191-227,
include/binTrie.hpp:152-175, include/fastBinaryTrie.hpp:157-191 assign to no member).
-/

namespace CBT

/-- The shared locations: the vector of tries, the height (a reference), a trie, the entries for thread `t` of `nextInitLevel`,
`nextRoots`, `nextActiveTries`, `nextPartialSolutions`, the arrays these point to, `threads_results[t]`, `shifts[t]`, and
`intersection[k]` (src/intersection.cpp:339-379, 393-408). -/
inductive Loc where
  | tries
  | height
  | trie (i : Nat)
  | level (t : Nat)
  | rootsPtr (t : Nat)
  | activePtr (t : Nat)
  | part (t : Nat)
  | roots (t : Nat)
  | active (t : Nat)
  | result (t : Nat)
  | shift (t : Nat)
  | out (k : Nat)
  deriving DecidableEq, Repr

/-- A location, and whether it is written. -/
abbrev Access := Loc × Bool

def rd (l : Loc) : Access := (l, false)
def wr (l : Loc) : Access := (l, true)

/-- What a loop over `n` tries looks at; `top` if the roots and the flags are the arrays of task `t`, and not on the stack
(src/intersection.cpp:54-69, 90-93, 137-141, 151-154). -/
def loopReads (n t : Nat) (top : Bool) : List Access :=
  [rd .tries, rd .height] ++ (List.range n).map (fun i => rd (.trie i)) ++ (if top then [rd (.roots t), rd (.active t)] else [])

/-- `AND` with its accesses (src/intersection.cpp:129-185, src/fastTrieIntersection.cpp:139-207) for thread `t`; `r` is
`threads_results[t]`. -/
def ANDa (Ts : List Nav) (c : Cfg) (t : Nat) : (rem : Nat) → (level : Nat) → (top : Bool) → (roots : List (Option Nat)) → (pref : Nat) →
    (r : List Nat) → R (List Access × List Nat)
  | 0, _, top, roots, pref, r => do
    let r ← c.base roots pref r
    .ok (loopReads Ts.length t top ++ [wr (.result t)], r)
  | rem + 1, level, top, roots, pref, r => do
    let res ← andNodes Ts roots level 3
    let skip := c.skipLast && decide (rem = 0)
    if res = 0 then .ok (loopReads Ts.length t top, r)
    else if res = 2 then
      let ln ← children Nav.getLeftChild skip level Ts roots
      let (a, r) ← ANDa Ts c t rem (level + 1) false ln pref r
      .ok (loopReads Ts.length t top ++ a, r)
    else if res = 1 then
      let s ← shl1 (c.top - level - 1)
      let rn ← children Nav.getRightChild skip level Ts roots
      let (a, r) ← ANDa Ts c t rem (level + 1) false rn (pref ||| s) r
      .ok (loopReads Ts.length t top ++ a, r)
    else if res = 3 then
      let s ← shl1 (c.top - level - 1)
      let ln ← children Nav.getLeftChild skip level Ts roots
      let (a, r) ← ANDa Ts c t rem (level + 1) false ln pref r
      let (b, r) ← ANDa Ts c t rem (level + 1) false (succRoots ln) (pref ||| s) r
      .ok (loopReads Ts.length t top ++ a ++ b, r)
    else .ok (loopReads Ts.length t top, r)

/-- `runsAND` with its accesses (src/intersection.cpp:45-126, src/fastTrieIntersection.cpp:41-135). -/
def runsANDa (Ts : List Nav) (c : Cfg) (t : Nat) : (rem : Nat) → (level : Nat) → (top : Bool) → (roots : List (Option Nat)) →
    (active : List Bool) → (pref : Nat) → (r : List Nat) → R (List Access × List Nat)
  | 0, _, top, roots, active, pref, r => do
    let r ← c.runsBase roots active pref r
    .ok (loopReads Ts.length t top ++ [wr (.result t)], r)
  | rem + 1, level, top, roots, active, pref, r => do
    let (tmp, an, orr) ← runsNodes Ts roots active level 3 0
    let skip := c.skipLast && decide (rem = 0)
    if an = 0 ∧ orr ≠ 0 then .ok (loopReads Ts.length t top, r)
    else if orr = 0 then do
      let r ← fillRange pref (c.top - level) r
      .ok (loopReads Ts.length t top ++ [wr (.result t)], r)
    else if an = 2 then
      let ln ← childrenActive Nav.getLeftChild skip level Ts roots tmp
      let (a, r) ← runsANDa Ts c t rem (level + 1) false ln tmp pref r
      .ok (loopReads Ts.length t top ++ a, r)
    else if an = 1 then
      let s ← shl1 (c.top - level - 1)
      let rn ← childrenActive Nav.getRightChild skip level Ts roots tmp
      let (a, r) ← runsANDa Ts c t rem (level + 1) false rn tmp (pref ||| s) r
      .ok (loopReads Ts.length t top ++ a, r)
    else if an = 3 then
      let s ← shl1 (c.top - level - 1)
      let ln ← childrenActive Nav.getLeftChild skip level Ts roots tmp
      let (a, r) ← runsANDa Ts c t rem (level + 1) false ln tmp pref r
      let (b, r) ← runsANDa Ts c t rem (level + 1) false (succRoots ln) tmp (pref ||| s) r
      .ok (loopReads Ts.length t top ++ a ++ b, r)
    else .ok (loopReads Ts.length t top, r)

/-- The accesses of the threads of `parallel_for(nb, k, …)`, the last one being the calling thread, which works on the remainder while
the others run (include/parallel_for.hpp:43-46, 73-78). -/
def threadAccesses (nb k : Nat) (body : Nat → R (List Access)) : R (List (List Access)) := do
  let chunks ← parallelChunks nb k
  chunks.mapM fun c => do
    let bs ← (chunkIndices c).mapM body
    pure bs.flatten

/-- The first parallel section, for thread `t` (src/intersection.cpp:374-391, src/fastTrieIntersection.cpp:398-415). -/
def sectionOne (Ts : List Nav) (c : Cfg) (runs : Bool) (next : List Task) (levels : List Nat) (t : Nat) : R (List Access) := do
  let task ← vGet next t
  let level ← vGet levels t
  let (a, _) ← if runs then runsANDa Ts c t (c.stop - level) level true task.roots task.active task.part []
               else ANDa Ts c t (c.stop - level) level true task.roots task.part []
  .ok ([rd (.level t), rd (.rootsPtr t), rd (.part t)] ++ (if runs then [rd (.activePtr t)] else []) ++ a)

/-- The second parallel section, for thread `t` (src/intersection.cpp:403-409, src/fastTrieIntersection.cpp:427-433). -/
def sectionTwo (inter : List Nat) (results : List (List Nat)) (t : Nat) : R (List Access) := do
  let v ← vGet results t
  let sh ← vGet (shiftsOf results inter.length) t
  .ok ((List.range v.length).flatMap fun j => [rd (.result t), rd (.shift t), wr (.out (j + sh))])

/-- `Intersect` after the check of the heights (src/intersection.cpp:313-435, src/fastTrieIntersection.cpp:336-459): its result, and
for every parallel section that is reached the accesses of the threads. -/
def accessBody (Ts : List Nav) (c : Cfg) (height : Nat) (runs parallel : Bool) (env : Env) : R (List Nat × List (List (List Access))) := do
  let active := List.replicate 16 true
  let roots := List.replicate 16 (some 0)
  if env.hw = 0 then .error .conv
  let cut := Nat.log2 env.hw
  let nThreads := 2 ^ cut
  if parallel ∧ cut ≤ (height + 2 ^ 64 - 2) % 2 ^ 64 then
    let s ← partialAND Ts c runs cut 0 roots active 0 { r := [], tasks := [] }
    if s.tasks.length = 0 then .ok (s.r, [])
    else
      let total := s.tasks.length % 2 ^ 16
      let (rest, used, s) ← fillThreads Ts c runs cut nThreads total (s.tasks.take total) 0 total
        { s with tasks := [] }
      let next := s.tasks ++ rest
      let levels := List.replicate s.tasks.length (cut + 1) ++ List.replicate rest.length cut
      if next.length = 0 then .ok (s.r, [])
      else
        let one ← threadAccesses used used (sectionOne Ts c runs next levels)
        let results ← parallelFor actPush env.sched1 used used
          (fun t => do
            let task ← vGet next t
            let level ← vGet levels t
            let out ← if runs then runsAND Ts c (c.stop - level) level task.roots task.active task.part []
                      else AND Ts c (c.stop - level) level task.roots task.part []
            pure (out.map fun x => (t, x)))
          (List.replicate used [])
        let r ← gather env.sched2 s.r results used
        if s.r.length + (results.map List.length).sum > 450000 then
          let two ← threadAccesses used used (sectionTwo s.r results)
          .ok (r, [one, two])
        else .ok (r, [one])
  else if runs then do
    let r ← runsAND Ts c c.stop 0 roots active 0 []
    .ok (r, [])
  else do
    let r ← AND Ts c c.stop 0 roots 0 []
    .ok (r, [])

/-- `Intersect` (src/intersection.cpp:305-435). -/
def accessIntersect (Ts : List Nav) (runs parallel : Bool) (env : Env) : R (List Nat × List (List (List Access))) :=
  match Ts with
  | [] => .error .oob
  | T0 :: _ =>
    if Ts.any (fun T => T.height ≠ T0.height) then .ok ([], [])
    else accessBody Ts (flatCfg T0.height) T0.height runs parallel env

/-- `Intersect` (src/fastTrieIntersection.cpp:328-459). -/
def accessFastIntersect (lg : Nat) (Ts : List FNav) (runs parallel : Bool) (env : Env) : R (List Nat × List (List (List Access))) :=
  match Ts with
  | [] => .error .oob
  | T0 :: _ =>
    if Ts.any (fun T => T.height ≠ T0.height) then .ok ([], [])
    else if T0.height = 0 then .error .uninit
    else accessBody (Ts.map FNav.toNav) (fastCfg lg Ts T0.height) T0.height runs parallel env

end CBT
