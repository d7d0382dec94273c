import Verif.Model.Basic

/-!
# `parallel_for` and interleaved execution

A schedule is any list of thread numbers: the named thread performs its next action, if it has one left; when the
list is exhausted the threads finish one after the other. Every list is a legal schedule and every interleaving of
the threads' actions is the run of some list (the sequence of thread numbers in that interleaving).
-/

namespace CBT

/-- The sub-ranges `[start, end)` handed to the functor (include/parallel_for.hpp:35-36, 43-46, 73-74): one per thread
and a last one, for the remainder, run by the calling thread. Zero threads is a division by zero. The flag
`use_threads` does not change the ranges (include/parallel_for.hpp:66-69). Values are taken to fit an `int`. -/
def parallelChunks (nbElements nbThreads : Nat) : R (List (Nat × Nat)) :=
  if nbThreads = 0 then .error .conv
  else
    let batch := nbElements / nbThreads
    let remainder := nbElements % nbThreads
    .ok ((List.range nbThreads).map (fun i => (i * batch, i * batch + batch)) ++
      [(nbThreads * batch, nbThreads * batch + remainder)])

/-- `for (i = start; i < end; ++i)` (src/intersection.cpp:375, 384, 404). -/
def chunkIndices (c : Nat × Nat) : List Nat := List.range' c.1 (c.2 - c.1)

/-- Interleaved execution: thread `t` executes the actions `progs[t]` in order on the shared state.
Not a definition of /repo: semantics of `std::thread` (include/parallel_for.hpp:46, 78). -/
def interleave {α σ : Type} (act : α → σ → R σ) : (sched : List Nat) → (progs : List (List α)) → σ → R σ
  | [], progs, s => progs.flatten.foldlM (fun s a => act a s) s
  | t :: ts, progs, s =>
    match progs[t]? with
    | some (a :: as) => do
      let s ← act a s
      interleave act ts (progs.set t as) s
    | _ => interleave act ts progs s

/-- `parallel_for(nb, k, functor)` (include/parallel_for.hpp:24-79): `body i` is the list of shared-memory actions
performed for index `i`. -/
def parallelFor {α σ : Type} (act : α → σ → R σ) (sched : List Nat) (nb k : Nat) (body : Nat → R (List α)) (s : σ) :
    R σ := do
  let chunks ← parallelChunks nb k
  let progs ← chunks.mapM fun c => do
    let bs ← (chunkIndices c).mapM body
    pure bs.flatten
  interleave act sched progs s

/-- `threads_results[t].push_back(x)` (src/intersection.cpp:49, 80, 132 through the reference passed at 378, 387). -/
def actPush (a : Nat × Nat) (slots : List (List Nat)) : R (List (List Nat)) := do
  let v ← vGet slots a.1
  .ok (slots.set a.1 (v ++ [a.2]))

/-- `intersection[j + shifts[threadId]] = x` (src/intersection.cpp:406). -/
def actWrite (a : Nat × Nat) (mem : List Nat) : R (List Nat) :=
  if a.1 < mem.length then .ok (mem.set a.1 a.2) else .error .oob

end CBT
