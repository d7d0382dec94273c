import Verif.Model.Intersect

/-!
# `AND` with its result

`AND` returns a `bool` which no caller outside `AND` uses. To compute it `AND` reads variables that it may not have written:
an lvalue-to-rvalue conversion of an indeterminate `bool`, undefined by the letter of the standard. Here this is the outcome
`uninit`; `Model/Intersect.lean` ignores it.
-/

namespace CBT

/-- `AND` (src/intersection.cpp:129-185, src/fastTrieIntersection.cpp:139-207) with its result; the first argument is
`stop - currLevel`. `existLeft || existRight` (src/intersection.cpp:182, src/fastTrieIntersection.cpp:204) reads `existRight`
only if `existLeft` is false. -/
def ANDb (Ts : List Nav) (c : Cfg) : (rem : Nat) → (level : Nat) → (roots : List (Option Nat)) → (pref : Nat) →
    (r : List Nat) → R (Bool × List Nat)
  | 0, _, roots, pref, r => do
    let r ← c.base roots pref r
    .ok (true, r)
  | rem + 1, level, roots, pref, r => do
    let res ← andNodes Ts roots level 3
    let skip := c.skipLast && decide (rem = 0)
    if res = 0 then .ok (false, r)
    else if res = 2 then
      let ln ← children Nav.getLeftChild skip level Ts roots
      let (existLeft, r) ← ANDb Ts c rem (level + 1) ln pref r
      if existLeft then .ok (true, r) else .error .uninit
    else if res = 1 then
      let s ← shl1 (c.top - level - 1)
      let rn ← children Nav.getRightChild skip level Ts roots
      let _ ← ANDb Ts c rem (level + 1) rn (pref ||| s) r
      .error .uninit
    else if res = 3 then
      let s ← shl1 (c.top - level - 1)
      let ln ← children Nav.getLeftChild skip level Ts roots
      let (existLeft, r) ← ANDb Ts c rem (level + 1) ln pref r
      let (existRight, r) ← ANDb Ts c rem (level + 1) (succRoots ln) (pref ||| s) r
      .ok (existLeft || existRight, r)
    else .error .uninit

/-- `intersectBody` for calls without runs, with `ANDb` for `AND` (src/intersection.cpp:313-435,
src/fastTrieIntersection.cpp:336-459). -/
def strictBody (Ts : List Nav) (c : Cfg) (height : Nat) (parallel : Bool) (env : Env) : R (List Nat) := do
  let active := List.replicate 16 true
  let roots := List.replicate 16 (some 0)
  if env.hw = 0 then .error .conv
  let cut := Nat.log2 env.hw
  let nThreads := 2 ^ cut
  if parallel ∧ cut ≤ (height + 2 ^ 64 - 2) % 2 ^ 64 then
    let s ← partialAND Ts c false cut 0 roots active 0 { r := [], tasks := [] }
    if s.tasks.length = 0 then .ok s.r
    else
      let total := s.tasks.length % 2 ^ 16
      let (rest, used, s) ← fillThreads Ts c false cut nThreads total (s.tasks.take total) 0 total
        { s with tasks := [] }
      let next := s.tasks ++ rest
      let levels := List.replicate s.tasks.length (cut + 1) ++ List.replicate rest.length cut
      if next.length = 0 then .ok s.r
      else
        let results ← parallelFor actPush env.sched1 used used
          (fun t => do
            let task ← vGet next t
            let level ← vGet levels t
            let (_, out) ← ANDb Ts c (c.stop - level) level task.roots task.part []
            pure (out.map fun x => (t, x)))
          (List.replicate used [])
        gather env.sched2 s.r results used
  else do
    let (_, r) ← ANDb Ts c c.stop 0 roots 0 []
    .ok r

/-- `Intersect(Ts, false, parallel)` (src/intersection.cpp:305-435). -/
def strictIntersect (Ts : List Nav) (parallel : Bool) (env : Env) : R (List Nat) :=
  match Ts with
  | [] => .error .oob
  | T0 :: _ =>
    if Ts.any (fun T => T.height ≠ T0.height) then .ok []
    else strictBody Ts (flatCfg T0.height) T0.height parallel env

/-- `Intersect<rankType, wordType>(Ts, false, parallel)` (src/fastTrieIntersection.cpp:328-459). -/
def strictFastIntersect (lg : Nat) (Ts : List FNav) (parallel : Bool) (env : Env) : R (List Nat) :=
  match Ts with
  | [] => .error .oob
  | T0 :: _ =>
    if Ts.any (fun T => T.height ≠ T0.height) then .ok []
    else if T0.height = 0 then .error .uninit
    else strictBody (Ts.map FNav.toNav) (fastCfg lg Ts T0.height) T0.height parallel env

end CBT
