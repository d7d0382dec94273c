import Verif.Model.Intersect

/-!
# Memory of parallel `Intersect`

The tasks of the threads are arrays allocated by `partialAND` with `new[]` and freed at the end of `Intersect`. Here the
functions of `Model/Intersect.lean` work on a heap of such arrays; a task holds pointers. Using or freeing an array that is not
allocated is undefined (`null`).
-/

namespace CBT

/-- `new uint64_t[16]` and `new bool[16]` (src/intersection.cpp:194-197); of the 16 entries the ones that were written. -/
inductive Block where
  | roots (v : List (Option Nat))
  | flags (v : List Bool)
  deriving DecidableEq, Repr

/-- The arrays in the order of their allocation; a pointer is a position; a freed array is `none`. -/
abbrev Heap := List (Option Block)

/-- Number of arrays not freed. -/
def Heap.live (H : Heap) : Nat := H.countP Option.isSome

/-- `delete[] p` (src/intersection.cpp:422-424). -/
def Heap.free (p : Nat) (H : Heap) : R Heap :=
  match H[p]? with
  | some (some _) => .ok (H.set p none)
  | _ => .error .null

/-- Use of a pointer to an array of roots. -/
def Heap.roots (H : Heap) (p : Nat) : R (List (Option Nat)) :=
  match H[p]? with
  | some (some (.roots v)) => .ok v
  | _ => .error .null

/-- Use of a pointer to an array of flags; with `!runs` there are none and nobody uses them. -/
def Heap.flags (H : Heap) : Option Nat → R (List Bool)
  | none => .ok []
  | some p =>
    match H[p]? with
    | some (some (.flags v)) => .ok v
    | _ => .error .null

/-- One entry of `partial_ints`, `threads_roots` and, with runs, `threads_activeTries` (src/intersection.cpp:190-191). -/
structure MTask where
  part : Nat
  roots : Nat
  active : Option Nat
  deriving DecidableEq, Repr

structure MSt where
  r : List Nat
  tasks : List MTask
  heap : Heap
  deriving DecidableEq, Repr

/-- `partialAND` (src/intersection.cpp:188-302, src/fastTrieIntersection.cpp:211-325). -/
def partialANDm (Ts : List Nav) (c : Cfg) (runs : Bool) : (rem : Nat) → (level : Nat) → (roots : List (Option Nat)) →
    (active : List Bool) → (part : Nat) → MSt → R MSt
  | 0, _, roots, active, part, s =>
    if roots.length < Ts.length ∨ runs = true ∧ active.length < Ts.length then .error .oob
    else
      let p := s.heap.length
      if runs then
        .ok { s with tasks := s.tasks ++ [⟨part, p, some (p + 1)⟩],
                     heap := s.heap ++ [some (.roots (roots.take Ts.length)), some (.flags (active.take Ts.length))] }
      else .ok { s with tasks := s.tasks ++ [⟨part, p, none⟩], heap := s.heap ++ [some (.roots (roots.take Ts.length))] }
  | rem + 1, level, roots, active, part, s => do
    let (tmp, res, n00) ← partialNodes runs Ts roots active level 3 0
    if !runs ∧ res = 0 then .ok s
    else if runs ∧ n00 = 0 then do
      let r ← fillRange part (c.top - level) s.r
      .ok { s with r := r }
    else if res = 2 then
      let ln ← children Nav.getLeftChild false level Ts roots
      partialANDm Ts c runs rem (level + 1) ln tmp part s
    else if res = 1 then
      let sh ← shl1 (c.top - level - 1)
      let rn ← children Nav.getRightChild false level Ts roots
      partialANDm Ts c runs rem (level + 1) rn tmp (part ||| sh) s
    else if res = 3 then
      let sh ← shl1 (c.top - level - 1)
      let ln ← children Nav.getLeftChild false level Ts roots
      let s ← partialANDm Ts c runs rem (level + 1) ln tmp part s
      partialANDm Ts c runs rem (level + 1) (succRoots ln) tmp (part ||| sh) s
    else .ok s

/-- The loop that fills the threads (src/intersection.cpp:349-355, src/fastTrieIntersection.cpp:372-378). -/
def fillThreadsM (Ts : List Nav) (c : Cfg) (runs : Bool) (cut nThreads total : Nat) :
    (todo : List MTask) → (i used : Nat) → MSt → R (List MTask × Nat × MSt)
  | [], _, used, s => .ok ([], used, s)
  | t :: todo, i, used, s =>
    if (nThreads + 2 ^ 32 - used) % 2 ^ 32 > 1 then do
      let roots ← s.heap.roots t.roots
      let active ← s.heap.flags t.active
      let s ← partialANDm Ts c runs 1 cut roots active t.part s
      fillThreadsM Ts c runs cut nThreads total todo (i + 1) ((total + s.tasks.length - (i + 1)) % 2 ^ 16) s
    else .ok (t :: todo, used, s)

/-- One round of the last loop (src/intersection.cpp:422-424, src/fastTrieIntersection.cpp:446-448). -/
def freeTask (runs : Bool) (t : MTask) (H : Heap) : R Heap := do
  let H ← if runs then
      match t.active with
      | some p => H.free p
      | none => .error .oob
    else .ok H
  H.free t.roots

/-- The last loop (src/intersection.cpp:421-425, src/fastTrieIntersection.cpp:445-449). -/
def freeTasks (runs : Bool) (next : List MTask) (used : Nat) (H : Heap) : R Heap :=
  (List.range used).foldlM (fun H i => do
    let t ← vGet next i
    freeTask runs t H) H

/-- `Intersect` after the check of the heights (src/intersection.cpp:313-435, src/fastTrieIntersection.cpp:336-459): the result
and what is left of the memory it allocated with `new`. -/
def memBody (Ts : List Nav) (c : Cfg) (height : Nat) (runs parallel : Bool) (env : Env) : R (List Nat × Heap) := do
  let active := List.replicate 16 true
  let roots := List.replicate 16 (some 0)
  if env.hw = 0 then .error .conv
  let cut := Nat.log2 env.hw
  let nThreads := 2 ^ cut
  if parallel ∧ cut ≤ (height + 2 ^ 64 - 2) % 2 ^ 64 then
    let s ← partialANDm Ts c runs cut 0 roots active 0 { r := [], tasks := [], heap := [] }
    if s.tasks.length = 0 then .ok (s.r, s.heap)
    else
      let total := s.tasks.length % 2 ^ 16
      let (rest, used, s) ← fillThreadsM Ts c runs cut nThreads total (s.tasks.take total) 0 total
        { s with tasks := [] }
      let next := s.tasks ++ rest
      let levels := List.replicate s.tasks.length (cut + 1) ++ List.replicate rest.length cut
      if next.length = 0 then .ok (s.r, s.heap)
      else
        let results ← parallelFor actPush env.sched1 used used
          (fun t => do
            let task ← vGet next t
            let level ← vGet levels t
            let roots ← s.heap.roots task.roots
            let active ← s.heap.flags task.active
            let out ← if runs then runsAND Ts c (c.stop - level) level roots active task.part []
                      else AND Ts c (c.stop - level) level roots task.part []
            pure (out.map fun x => (t, x)))
          (List.replicate used [])
        let r ← gather env.sched2 s.r results used
        let H ← freeTasks runs next used s.heap
        .ok (r, H)
  else if runs then do
    let r ← runsAND Ts c c.stop 0 roots active 0 []
    .ok (r, [])
  else do
    let r ← AND Ts c c.stop 0 roots 0 []
    .ok (r, [])

/-- `Intersect` (src/intersection.cpp:305-435). -/
def memIntersect (Ts : List Nav) (runs parallel : Bool) (env : Env) : R (List Nat × Heap) :=
  match Ts with
  | [] => .error .oob
  | T0 :: _ =>
    if Ts.any (fun T => T.height ≠ T0.height) then .ok ([], [])
    else memBody Ts (flatCfg T0.height) T0.height runs parallel env

/-- `Intersect` (src/fastTrieIntersection.cpp:328-459). -/
def memFastIntersect (lg : Nat) (Ts : List FNav) (runs parallel : Bool) (env : Env) : R (List Nat × Heap) :=
  match Ts with
  | [] => .error .oob
  | T0 :: _ =>
    if Ts.any (fun T => T.height ≠ T0.height) then .ok ([], [])
    else if T0.height = 0 then .error .uninit
    else memBody (Ts.map FNav.toNav) (fastCfg lg Ts T0.height) T0.height runs parallel env

end CBT
