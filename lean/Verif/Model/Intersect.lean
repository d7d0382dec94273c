import Verif.Model.Runs
import Verif.Model.Parallel

/-!
# `Intersect`

src/intersection.cpp and src/fastTrieIntersection.cpp have the same functions; they differ in the end condition of
the recursion and in the offset of the shifts, which are the fields of `Cfg` below. Arrays of 16 entries indexed by
the trie number are lists read along the list of tries: running off the list is an access outside the array. An
entry `none` was never written.
-/

namespace CBT

/-- Read `roots[i]`. -/
def readRoot : Option Nat → R Nat
  | some x => .ok x
  | none => .error .uninit

/-- What distinguishes the two source files.
* `top`: the bit written for a right branch at level `l` is `top - l - 1`: `maxLevel` (src/intersection.cpp:99) or
  `maxLevel + log2(W) - 1` (src/fastTrieIntersection.cpp:108)
* `stop`: level of the end condition: `maxLevel` (src/intersection.cpp:48, 131) or `maxLevel - 1`
  (src/fastTrieIntersection.cpp:45, 141)
* `skipLast`: children are not computed in the level above `stop` (src/intersection.cpp:91; the same test at
  src/fastTrieIntersection.cpp:100 is always true)
* `base`, `runsBase`: what the end condition appends. -/
structure Cfg where
  top : Nat
  stop : Nat
  skipLast : Bool
  base : List (Option Nat) → Nat → List Nat → R (List Nat)
  runsBase : List (Option Nat) → List Bool → Nat → List Nat → R (List Nat)

/-- `andResult &= Ts[i]->getNode(roots[i], level)` over all tries (src/intersection.cpp:137-141,
src/fastTrieIntersection.cpp:159-163). -/
def andNodes : (Ts : List Nav) → (roots : List (Option Nat)) → (level res : Nat) → R Nat
  | [], _, _, res => .ok res
  | _ :: _, [], _, _ => .error .oob
  | T :: Ts, o :: os, level, res => do
    let id ← readRoot o
    let node ← T.getNode id level
    andNodes Ts os level (res &&& node)

/-- The loops that fill `leftNodes` or `rightNodes` (src/intersection.cpp:151-154, 160-163, 249-254, 264-269):
child of every root by the navigation function `get`; nothing is written when `skip`. -/
def children (get : Nav → Nat → Nat → R Nat) (skip : Bool) (level : Nat) :
    (Ts : List Nav) → (roots : List (Option Nat)) → R (List (Option Nat))
  | [], _ => .ok []
  | _ :: _, [] => .error .oob
  | T :: Ts, o :: os => do
    let c ← if skip then pure none else do
              let id ← readRoot o
              let c ← get T id level
              pure (some c)
    let cs ← children get skip level Ts os
    .ok (c :: cs)

/-- `rightNodes[i] = leftNode + 1` for the entries written (src/intersection.cpp:176, 117, 285). -/
def succRoots (l : List (Option Nat)) : List (Option Nat) := l.map (Option.map (· + 1))

/-- `AND` (src/intersection.cpp:129-185, src/fastTrieIntersection.cpp:139-207); the first argument is
`stop - currLevel`. The `bool` result is not modelled: it reads indeterminate variables (`existLeft` or `existRight`
at src/intersection.cpp:182) and no caller uses it. -/
def AND (Ts : List Nav) (c : Cfg) : (rem : Nat) → (level : Nat) → (roots : List (Option Nat)) → (pref : Nat) →
    (r : List Nat) → R (List Nat)
  | 0, _, roots, pref, r => c.base roots pref r
  | rem + 1, level, roots, pref, r => do
    let res ← andNodes Ts roots level 3
    let skip := c.skipLast && decide (rem = 0)
    if res = 0 then .ok r
    else if res = 2 then
      let ln ← children Nav.getLeftChild skip level Ts roots
      AND Ts c rem (level + 1) ln pref r
    else if res = 1 then
      let s ← shl1 (c.top - level - 1)
      let rn ← children Nav.getRightChild skip level Ts roots
      AND Ts c rem (level + 1) rn (pref ||| s) r
    else if res = 3 then
      let s ← shl1 (c.top - level - 1)
      let ln ← children Nav.getLeftChild skip level Ts roots
      let r ← AND Ts c rem (level + 1) ln pref r
      AND Ts c rem (level + 1) (succRoots ln) (pref ||| s) r
    else .ok r

/-- First loop of `runsAND` (src/intersection.cpp:54-69, src/fastTrieIntersection.cpp:63-78): the new
`tempActiveTries`, `andResult` and `orResult`. -/
def runsNodes : (Ts : List Nav) → (roots : List (Option Nat)) → (active : List Bool) → (level an orr : Nat) →
    R (List Bool × Nat × Nat)
  | [], _, _, _, an, orr => .ok ([], an, orr)
  | T :: Ts, o :: os, a :: as, level, an, orr =>
    if a then do
      let id ← readRoot o
      let node ← T.getNode id level
      if node ≠ 0 then
        let (tmp, an, orr) ← runsNodes Ts os as level (an &&& node) (orr ||| node)
        .ok (true :: tmp, an, orr)
      else
        let (tmp, an, orr) ← runsNodes Ts os as level an (orr ||| node)
        .ok (false :: tmp, an, orr)
    else do
      let (tmp, an, orr) ← runsNodes Ts os as level an orr
      .ok (false :: tmp, an, orr)
  | _ :: _, _, _, _, _, _ => .error .oob

/-- The loops of `runsAND` that fill `leftNodes` or `rightNodes` for the active tries (src/intersection.cpp:90-93,
100-103, 113-119). -/
def childrenActive (get : Nav → Nat → Nat → R Nat) (skip : Bool) (level : Nat) :
    (Ts : List Nav) → (roots : List (Option Nat)) → (active : List Bool) → R (List (Option Nat))
  | [], _, _ => .ok []
  | T :: Ts, o :: os, a :: as => do
    let c ← if a && !skip then do
              let id ← readRoot o
              let c ← get T id level
              pure (some c)
            else pure none
    let cs ← childrenActive get skip level Ts os as
    .ok (c :: cs)
  | _ :: _, _, _ => .error .oob

/-- `runsAND` (src/intersection.cpp:45-126, src/fastTrieIntersection.cpp:41-135); the first argument is
`stop - currLevel`. -/
def runsAND (Ts : List Nav) (c : Cfg) : (rem : Nat) → (level : Nat) → (roots : List (Option Nat)) →
    (active : List Bool) → (pref : Nat) → (r : List Nat) → R (List Nat)
  | 0, _, roots, active, pref, r => c.runsBase roots active pref r
  | rem + 1, level, roots, active, pref, r => do
    let (tmp, an, orr) ← runsNodes Ts roots active level 3 0
    let skip := c.skipLast && decide (rem = 0)
    if an = 0 ∧ orr ≠ 0 then .ok r
    else if orr = 0 then fillRange pref (c.top - level) r
    else if an = 2 then
      let ln ← childrenActive Nav.getLeftChild skip level Ts roots tmp
      runsAND Ts c rem (level + 1) ln tmp pref r
    else if an = 1 then
      let s ← shl1 (c.top - level - 1)
      let rn ← childrenActive Nav.getRightChild skip level Ts roots tmp
      runsAND Ts c rem (level + 1) rn tmp (pref ||| s) r
    else if an = 3 then
      let s ← shl1 (c.top - level - 1)
      let ln ← childrenActive Nav.getLeftChild skip level Ts roots tmp
      let r ← runsAND Ts c rem (level + 1) ln tmp pref r
      runsAND Ts c rem (level + 1) (succRoots ln) tmp (pref ||| s) r
    else .ok r

/-- One entry of the vectors `partial_ints`, `threads_roots`, `threads_activeTries`, which are pushed together
(src/intersection.cpp:194-206); the active flags are absent when `!runs`. -/
structure Task where
  part : Nat
  roots : List (Option Nat)
  active : List Bool
  deriving DecidableEq, Repr

/-- Output parameters of `partialAND`: `r` and the vectors of tasks (src/intersection.cpp:190-191). -/
structure PSt where
  r : List Nat
  tasks : List Task
  deriving DecidableEq, Repr

/-- First loop of `partialAND` (src/intersection.cpp:210-232, src/fastTrieIntersection.cpp:233-255):
`tempActiveTries` (left unwritten when `!runs`), `result`, `node00`. -/
def partialNodes (runs : Bool) : (Ts : List Nav) → (roots : List (Option Nat)) → (active : List Bool) →
    (level res n00 : Nat) → R (List Bool × Nat × Nat)
  | [], _, _, _, res, n00 => .ok ([], res, n00)
  | _ :: _, [], _, _, _, _ => .error .oob
  | T :: Ts, o :: os, active, level, res, n00 =>
    if runs then
      match active with
      | [] => .error .oob
      | a :: as =>
        if a then do
          let id ← readRoot o
          let node ← T.getNode id level
          let keep := decide (node ≠ 0) || runs
          let (tmp, res, n00) ← partialNodes runs Ts os as level (if keep then res &&& node else res) (n00 ||| node)
          .ok (keep :: tmp, res, n00)
        else do
          let (tmp, res, n00) ← partialNodes runs Ts os as level res n00
          .ok (false :: tmp, res, n00)
    else do
      let id ← readRoot o
      let node ← T.getNode id level
      partialNodes runs Ts os active level (res &&& node) n00

/-- `partialAND` (src/intersection.cpp:188-302, src/fastTrieIntersection.cpp:211-325); the first argument is
`cut_level - curr_level`. Both branches of every `if (runs && tempActiveTries[i])` compute the same child. The copy at
src/intersection.cpp:199-203 reads only entries that were written. -/
def partialAND (Ts : List Nav) (c : Cfg) (runs : Bool) : (rem : Nat) → (level : Nat) → (roots : List (Option Nat)) →
    (active : List Bool) → (part : Nat) → PSt → R PSt
  | 0, _, roots, active, part, s =>
    if roots.length < Ts.length ∨ runs = true ∧ active.length < Ts.length then .error .oob
    else
      .ok { s with tasks := s.tasks ++ [{ part := part, roots := roots.take Ts.length,
                                          active := if runs then active.take Ts.length else [] }] }
  | rem + 1, level, roots, active, part, s => do
    let (tmp, res, n00) ← partialNodes runs Ts roots active level 3 0
    if !runs ∧ res = 0 then .ok s
    else if runs ∧ n00 = 0 then do
      let r ← fillRange part (c.top - level) s.r
      .ok { s with r := r }
    else if res = 2 then
      let ln ← children Nav.getLeftChild false level Ts roots
      partialAND Ts c runs rem (level + 1) ln tmp part s
    else if res = 1 then
      let sh ← shl1 (c.top - level - 1)
      let rn ← children Nav.getRightChild false level Ts roots
      partialAND Ts c runs rem (level + 1) rn tmp (part ||| sh) s
    else if res = 3 then
      let sh ← shl1 (c.top - level - 1)
      let ln ← children Nav.getLeftChild false level Ts roots
      let s ← partialAND Ts c runs rem (level + 1) ln tmp part s
      partialAND Ts c runs rem (level + 1) (succRoots ln) tmp (part ||| sh) s
    else .ok s

/-- The loop that goes down one more level to fill the threads (src/intersection.cpp:349-355,
src/fastTrieIntersection.cpp:372-378): `todo` are the tasks from index `i` on, `used` is `usedThreads` (`uint16_t`).
Returns the tasks not expanded, the final `usedThreads` and the new tasks. -/
def fillThreads (Ts : List Nav) (c : Cfg) (runs : Bool) (cut nThreads total : Nat) :
    (todo : List Task) → (i used : Nat) → PSt → R (List Task × Nat × PSt)
  | [], _, used, s => .ok ([], used, s)
  | t :: todo, i, used, s =>
    if (nThreads + 2 ^ 32 - used) % 2 ^ 32 > 1 then do
      let s ← partialAND Ts c runs 1 cut t.roots t.active t.part s
      fillThreads Ts c runs cut nThreads total todo (i + 1) ((total + s.tasks.length - (i + 1)) % 2 ^ 16) s
    else .ok (t :: todo, used, s)

/-- The execution environment: `std::thread::hardware_concurrency()` (src/intersection.cpp:323), the interleavings
of the two parallel sections (src/intersection.cpp:373-391 and 403-409). -/
structure Env where
  hw : Nat
  sched1 : List Nat
  sched2 : List Nat

/-- `shifts` (src/intersection.cpp:393-399). -/
def shiftsOf : (results : List (List Nat)) → (shift : Nat) → List Nat
  | [], _ => []
  | v :: vs, shift => shift :: shiftsOf vs (shift + v.length)

/-- Collecting the threads' results (src/intersection.cpp:392-419, src/fastTrieIntersection.cpp:416-443). -/
def gather (sched : List Nat) (inter : List Nat) (results : List (List Nat)) (used : Nat) : R (List Nat) :=
  let outSize := inter.length + (results.map List.length).sum
  let shifts := shiftsOf results inter.length
  if outSize > 450000 then
    parallelFor actWrite sched used used
      (fun t => do
        let v ← vGet results t
        let sh ← vGet shifts t
        pure ((List.range v.length).zip v |>.map fun jx => (jx.1 + sh, jx.2)))
      (inter ++ List.replicate (outSize - inter.length) 0)
  else .ok (inter ++ results.flatten)

/-- `Intersect` after the check of the heights (src/intersection.cpp:313-435, src/fastTrieIntersection.cpp:336-459).
`height - 2` is computed on a `uint64_t`. -/
def intersectBody (Ts : List Nav) (c : Cfg) (height : Nat) (runs parallel : Bool) (env : Env) : R (List Nat) := do
  let active := List.replicate 16 true
  let roots := List.replicate 16 (some 0)
  if env.hw = 0 then .error .conv
  let cut := Nat.log2 env.hw
  let nThreads := 2 ^ cut
  if parallel ∧ cut ≤ (height + 2 ^ 64 - 2) % 2 ^ 64 then
    let s ← partialAND Ts c runs cut 0 roots active 0 { r := [], tasks := [] }
    if s.tasks.length = 0 then .ok s.r
    else
      let total := s.tasks.length % 2 ^ 16
      let (rest, used, s) ← fillThreads Ts c runs cut nThreads total (s.tasks.take total) 0 total
        { s with tasks := [] }
      let next := s.tasks ++ rest
      let levels := List.replicate s.tasks.length (cut + 1) ++ List.replicate rest.length cut
      if next.length = 0 then .ok s.r
      else
        let results ← parallelFor actPush env.sched1 used used
          (fun t => do
            let task ← vGet next t
            let level ← vGet levels t
            let out ← if runs then runsAND Ts c (c.stop - level) level task.roots task.active task.part []
                      else AND Ts c (c.stop - level) level task.roots task.part []
            pure (out.map fun x => (t, x)))
          (List.replicate used [])
        gather env.sched2 s.r results used
  else if runs then runsAND Ts c c.stop 0 roots active 0 []
  else AND Ts c c.stop 0 roots 0 []

/-- The end condition of src/intersection.cpp:48-51, 131-134: append the prefix. -/
def flatCfg (height : Nat) : Cfg where
  top := height
  stop := height
  skipLast := true
  base := fun _ pref r => .ok (r ++ [pref])
  runsBase := fun _ _ pref r => .ok (r ++ [pref])

/-- `Intersect(vector<binaryTrie*>&, runs, parallel)` (src/intersection.cpp:305-435). -/
def intersect (Ts : List Nav) (runs parallel : Bool) (env : Env) : R (List Nat) :=
  match Ts with
  | [] => .error .oob
  | T0 :: _ =>
    if Ts.any (fun T => T.height ≠ T0.height) then .ok []
    else intersectBody Ts (flatCfg T0.height) T0.height runs parallel env

/-- `w &= Ts[i]->getWord(roots[i])` over all tries (src/fastTrieIntersection.cpp:143-146). -/
def andWords : (Ts : List FNav) → (roots : List (Option Nat)) → (w : Nat) → R Nat
  | [], _, w => .ok w
  | _ :: _, [], _ => .error .oob
  | T :: Ts, o :: os, w => do
    let id ← readRoot o
    let x ← T.getWord id
    andWords Ts os (w &&& x)

/-- The same over the active tries (src/fastTrieIntersection.cpp:46-51). -/
def andWordsActive : (Ts : List FNav) → (roots : List (Option Nat)) → (active : List Bool) → (w : Nat) → R Nat
  | [], _, _, w => .ok w
  | T :: Ts, o :: os, a :: as, w =>
    if a then do
      let id ← readRoot o
      let x ← T.getWord id
      andWordsActive Ts os as (w &&& x)
    else andWordsActive Ts os as w
  | _ :: _, _, _, _ => .error .oob

/-- The end condition of src/fastTrieIntersection.cpp:45-60, 141-155: append the elements of the common word. -/
def fastCfg (lg : Nat) (Ts : List FNav) (height : Nat) : Cfg where
  top := height + lg - 1
  stop := height - 1
  skipLast := false
  base := fun roots pref r => do
    let w ← andWords Ts roots (2 ^ 2 ^ lg - 1)
    emitWord lg pref (2 ^ lg) w r
  runsBase := fun roots active pref r => do
    let w ← andWordsActive Ts roots active (2 ^ 2 ^ lg - 1)
    emitWord lg pref (2 ^ lg) w r

/-- `Intersect<rankType, wordType>` (src/fastTrieIntersection.cpp:328-459). A height of 0 belongs to a
default-constructed trie only, whose height is indeterminate. -/
def fastIntersect (lg : Nat) (Ts : List FNav) (runs parallel : Bool) (env : Env) : R (List Nat) :=
  match Ts with
  | [] => .error .oob
  | T0 :: _ =>
    if Ts.any (fun T => T.height ≠ T0.height) then .ok []
    else if T0.height = 0 then .error .uninit
    else intersectBody (Ts.map FNav.toNav) (fastCfg lg Ts T0.height) T0.height runs parallel env

end CBT
