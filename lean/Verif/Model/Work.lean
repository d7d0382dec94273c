import Verif.Model.Cost

/-!
# The threads of `Intersect`

The functions of `Model/Cost.lean` with the counters of the calling thread and of the threads kept apart, and with the number of
threads of each `parallel_for`.
-/

namespace CBT

/-- `alone`: what the calling thread reads of the tries while no other thread runs. `threads`: what each thread of the first
`parallel_for` reads (src/intersection.cpp:373-391, src/fastTrieIntersection.cpp:397-415). `writers`: the number of threads of the
second one (src/intersection.cpp:403, src/fastTrieIntersection.cpp:427). They read nothing of the tries. The last call of the functor in
`parallel_for` (include/parallel_for.hpp:73-74), by the calling thread, is on an empty range: the number of elements is the number of
threads. -/
structure Work where
  alone : Cost
  threads : List Cost
  writers : Nat
  deriving DecidableEq, Repr

/-- `gather` (src/intersection.cpp:392-419, src/fastTrieIntersection.cpp:416-443), with the number of threads it starts. -/
def gatherW (sched : List Nat) (inter : List Nat) (results : List (List Nat)) (used : Nat) : R (List Nat × Nat) := do
  let outSize := inter.length + (results.map List.length).sum
  let shifts := shiftsOf results inter.length
  if outSize > 450000 then
    let r ← parallelFor actWrite sched used used
      (fun t => do
        let v ← vGet results t
        let sh ← vGet shifts t
        pure ((List.range v.length).zip v |>.map fun jx => (jx.1 + sh, jx.2)))
      (inter ++ List.replicate (outSize - inter.length) 0)
    .ok (r, used)
  else .ok (inter ++ results.flatten, 0)

/-- `Intersect` after the check of the heights (src/intersection.cpp:313-435, src/fastTrieIntersection.cpp:336-459). -/
def workBody (Ts : List Nav) (c : CfgC) (height : Nat) (runs parallel : Bool) (env : Env) : R (List Nat × Work) := do
  let active := List.replicate 16 true
  let roots := List.replicate 16 (some 0)
  if env.hw = 0 then .error .conv
  let cut := Nat.log2 env.hw
  let nThreads := 2 ^ cut
  if parallel ∧ cut ≤ (height + 2 ^ 64 - 2) % 2 ^ 64 then
    let (s, k) ← partialANDc Ts c.cfg runs cut 0 roots active 0 { r := [], tasks := [] }
    if s.tasks.length = 0 then .ok (s.r, ⟨k, [], 0⟩)
    else
      let total := s.tasks.length % 2 ^ 16
      let ((rest, used, s), k') ← fillThreadsC Ts c.cfg runs cut nThreads total (s.tasks.take total) 0 total
        { s with tasks := [] }
      let next := s.tasks ++ rest
      let levels := List.replicate s.tasks.length (cut + 1) ++ List.replicate rest.length cut
      if next.length = 0 then .ok (s.r, ⟨k.add k', [], 0⟩)
      else
        let results ← parallelFor actPush env.sched1 used used
          (fun t => do
            let (out, _) ← threadC Ts c runs next levels t
            pure (out.map fun x => (t, x)))
          (List.replicate used [])
        let (r, w) ← gatherW env.sched2 s.r results used
        let ks ← (List.range used).mapM fun t => do
          let (_, k) ← threadC Ts c runs next levels t
          pure k
        .ok (r, ⟨k.add k', ks, w⟩)
  else if runs then do
    let (r, k) ← runsANDc Ts c c.cfg.stop 0 roots active 0 []
    .ok (r, ⟨k, [], 0⟩)
  else do
    let (r, k) ← ANDc Ts c c.cfg.stop 0 roots 0 []
    .ok (r, ⟨k, [], 0⟩)

/-- `Intersect(vector<binaryTrie*>&, runs, parallel)` (src/intersection.cpp:305-435). -/
def workIntersect (Ts : List Nav) (runs parallel : Bool) (env : Env) : R (List Nat × Work) :=
  match Ts with
  | [] => .error .oob
  | T0 :: _ =>
    if Ts.any (fun T => T.height ≠ T0.height) then .ok ([], ⟨.zero, [], 0⟩)
    else workBody Ts (flatCfgC T0.height) T0.height runs parallel env

/-- `Intersect<rankType, wordType>` (src/fastTrieIntersection.cpp:328-459). -/
def workFastIntersect (lg : Nat) (Ts : List FNav) (runs parallel : Bool) (env : Env) : R (List Nat × Work) :=
  match Ts with
  | [] => .error .oob
  | T0 :: _ =>
    if Ts.any (fun T => T.height ≠ T0.height) then .ok ([], ⟨.zero, [], 0⟩)
    else if T0.height = 0 then .error .uninit
    else workBody (Ts.map FNav.toNav) (fastCfgC lg Ts T0.height) T0.height runs parallel env

end CBT
