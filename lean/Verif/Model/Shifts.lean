import Verif.Model.Intersect

/-!
# `decode` and `Intersect` with checked shift amounts

The other modules compute the amounts of shifts on natural numbers, where `a - b` is 0 if `a < b`. Here a difference below zero is a
shift that is undefined: the amount is a negative `int` (include/flatBinTrie.hpp:405, 423, 439, include/flatBinTrie_il.hpp:416, 434, 450,
include/binTrie.hpp:360, 378, 394, include/binTrie_il.hpp:346, 364, 380) or a `uint64_t` that has wrapped around and is far above 64
(include/fastBinaryTrie.hpp:371, 394, 409, src/intersection.cpp:76, 99, 112, 159, 171, 238, 263, 280, src/fastTrieIntersection.cpp:85, 108, 121,
181, 193, 261, 286, 303).

Likewise the number of levels left is `stop - level` in the other modules, which is 0 if `stop < level`. The functions stop when the level
is equal to `stop` (src/intersection.cpp:48, 131, src/fastTrieIntersection.cpp:45, 141): from a level below `stop` they never stop there.
Here such a start has the outcome `fuel`.
-/

namespace CBT

/-- `1ULL << (a - b)`. -/
def shlDiff (a b : Nat) : R Nat := if b ≤ a then shl1 (a - b) else .error .shift

/-- `fillRange` (Model/Runs) with `range = (1 << (a - b)) - 1`. -/
def fillDiff (p a b : Nat) (out : List Nat) : R (List Nat) := if b ≤ a then fillRange p (a - b) out else .error .shift

/-! ## `decode` -/

/-- `recDecode` (include/flatBinTrie.hpp:387-409, include/flatBinTrie_il.hpp:398-420, include/binTrie.hpp:342-364,
include/binTrie_il.hpp:328-350). -/
def recDecodeK (n : Nav) : (rem : Nat) → (out : List Nat) → (part id level : Nat) → R (List Nat)
  | 0, out, part, _, _ => .ok (out ++ [part])
  | rem + 1, out, part, id, level => do
    let node ← n.getNode id level
    let out ← if node = 2 ∨ node = 3 then do
                let c ← n.getLeftChild id level
                recDecodeK n rem out part c (level + 1)
              else pure out
    if node = 1 ∨ node = 3 then do
      let s ← shlDiff n.height (level + 1)
      let c ← n.getRightChild id level
      recDecodeK n rem out (part ||| s) c (level + 1)
    else pure out

/-- `runsRecDecode` (include/flatBinTrie.hpp:412-443, include/flatBinTrie_il.hpp:423-454, include/binTrie.hpp:367-398,
include/binTrie_il.hpp:353-384). -/
def runsRecDecodeK (n : Nav) : (rem : Nat) → (out : List Nat) → (part id level : Nat) → R (List Nat)
  | 0, out, part, _, _ => .ok (out ++ [part])
  | rem + 1, out, part, id, level => do
    let node ← n.getNode id level
    if node = 0 then fillDiff part n.height level out
    else
      let out ← if node = 2 ∨ node = 3 then do
                  let c ← n.getLeftChild id level
                  runsRecDecodeK n rem out part c (level + 1)
                else pure out
      if node = 1 ∨ node = 3 then do
        let s ← shlDiff n.height (level + 1)
        let c ← n.getRightChild id level
        runsRecDecodeK n rem out (part ||| s) c (level + 1)
      else pure out

/-- `decode` (include/flatBinTrie.hpp:446-458, include/flatBinTrie_il.hpp:457-471). -/
def FlatTrie.decodeK (t : FlatTrie) (pad : Nat) (out : List Nat) : R (List Nat) :=
  if t.runsEncoded then
    if t.emptyTrie then .ok out else runsRecDecodeK (t.nav pad) t.height out 0 0 0
  else recDecodeK (t.nav pad) t.height out 0 0 0

/-- `decode` (include/binTrie.hpp:401-415, include/binTrie_il.hpp:387-401). -/
def LevelTrie.decodeK (t : LevelTrie) (il : Bool) (pad : Nat) (out : List Nat) : R (List Nat) :=
  if t.runsEncoded then
    if t.emptyTrie then .ok out else runsRecDecodeK (t.nav il pad) t.heightWithRuns out 0 0 0
  else recDecodeK (t.nav il pad) t.height out 0 0 0

/-- `fastRecDecode` (include/fastBinaryTrie.hpp:350-374). -/
def fastRecDecodeK (lg hu : Nat) (n : FNav) : (rem : Nat) → (out : List Nat) → (part id level : Nat) → R (List Nat)
  | 0, out, part, id, _ => do
    let w ← n.getWord id
    emitWord lg part (2 ^ lg) w out
  | rem + 1, out, part, id, level => do
    let node ← n.getNode id level
    let out ← if node = 2 ∨ node = 3 then do
                let c ← n.getLeftChild id level
                fastRecDecodeK lg hu n rem out part c (level + 1)
              else pure out
    if node = 1 ∨ node = 3 then do
      let s ← shlDiff hu (level + 1)
      let c ← n.getRightChild id level
      fastRecDecodeK lg hu n rem out (part ||| s) c (level + 1)
    else pure out

/-- `fastRunsRecDecode` (include/fastBinaryTrie.hpp:377-412). -/
def fastRunsRecDecodeK (lg hu : Nat) (n : FNav) : (rem : Nat) → (out : List Nat) → (part id level : Nat) → R (List Nat)
  | 0, out, part, id, _ => do
    let w ← n.getWord id
    emitWord lg part (2 ^ lg) w out
  | rem + 1, out, part, id, level => do
    let node ← n.getNode id level
    if node = 0 then fillDiff part hu level out
    else
      let out ← if node = 2 ∨ node = 3 then do
                  let c ← n.getLeftChild id level
                  fastRunsRecDecodeK lg hu n rem out part c (level + 1)
                else pure out
      if node = 1 ∨ node = 3 then do
        let s ← shlDiff hu (level + 1)
        let c ← n.getRightChild id level
        fastRunsRecDecodeK lg hu n rem out (part ||| s) c (level + 1)
      else pure out

/-- `fastBinaryTrie::decode` (include/fastBinaryTrie.hpp:415-427). -/
def FastTrie.decodeK (lg : Nat) (t : FastTrie) (pad : Nat) (out : List Nat) : R (List Nat) :=
  if t.height = 0 then .error .uninit
  else if t.runsEncoded then
    if t.emptyTrie then .ok out else fastRunsRecDecodeK lg t.heightU (t.nav pad) (t.height - 1) out 0 0 0
  else fastRecDecodeK lg t.heightU (t.nav pad) (t.height - 1) out 0 0 0

/-! ## `Intersect` -/

/-- `AND` (src/intersection.cpp:129-185, src/fastTrieIntersection.cpp:139-207). -/
def ANDK (Ts : List Nav) (c : Cfg) : (rem : Nat) → (level : Nat) → (roots : List (Option Nat)) → (pref : Nat) →
    (r : List Nat) → R (List Nat)
  | 0, _, roots, pref, r => c.base roots pref r
  | rem + 1, level, roots, pref, r => do
    let res ← andNodes Ts roots level 3
    let skip := c.skipLast && decide (rem = 0)
    if res = 0 then .ok r
    else if res = 2 then
      let ln ← children Nav.getLeftChild skip level Ts roots
      ANDK Ts c rem (level + 1) ln pref r
    else if res = 1 then
      let s ← shlDiff c.top (level + 1)
      let rn ← children Nav.getRightChild skip level Ts roots
      ANDK Ts c rem (level + 1) rn (pref ||| s) r
    else if res = 3 then
      let s ← shlDiff c.top (level + 1)
      let ln ← children Nav.getLeftChild skip level Ts roots
      let r ← ANDK Ts c rem (level + 1) ln pref r
      ANDK Ts c rem (level + 1) (succRoots ln) (pref ||| s) r
    else .ok r

/-- `runsAND` (src/intersection.cpp:45-126, src/fastTrieIntersection.cpp:41-135). -/
def runsANDK (Ts : List Nav) (c : Cfg) : (rem : Nat) → (level : Nat) → (roots : List (Option Nat)) →
    (active : List Bool) → (pref : Nat) → (r : List Nat) → R (List Nat)
  | 0, _, roots, active, pref, r => c.runsBase roots active pref r
  | rem + 1, level, roots, active, pref, r => do
    let (tmp, an, orr) ← runsNodes Ts roots active level 3 0
    let skip := c.skipLast && decide (rem = 0)
    if an = 0 ∧ orr ≠ 0 then .ok r
    else if orr = 0 then fillDiff pref c.top level r
    else if an = 2 then
      let ln ← childrenActive Nav.getLeftChild skip level Ts roots tmp
      runsANDK Ts c rem (level + 1) ln tmp pref r
    else if an = 1 then
      let s ← shlDiff c.top (level + 1)
      let rn ← childrenActive Nav.getRightChild skip level Ts roots tmp
      runsANDK Ts c rem (level + 1) rn tmp (pref ||| s) r
    else if an = 3 then
      let s ← shlDiff c.top (level + 1)
      let ln ← childrenActive Nav.getLeftChild skip level Ts roots tmp
      let r ← runsANDK Ts c rem (level + 1) ln tmp pref r
      runsANDK Ts c rem (level + 1) (succRoots ln) tmp (pref ||| s) r
    else .ok r

/-- `partialAND` (src/intersection.cpp:188-302, src/fastTrieIntersection.cpp:211-325). -/
def partialANDK (Ts : List Nav) (c : Cfg) (runs : Bool) : (rem : Nat) → (level : Nat) → (roots : List (Option Nat)) →
    (active : List Bool) → (part : Nat) → PSt → R PSt
  | 0, _, roots, active, part, s =>
    if roots.length < Ts.length ∨ runs = true ∧ active.length < Ts.length then .error .oob
    else
      .ok { s with tasks := s.tasks ++ [{ part := part, roots := roots.take Ts.length,
                                          active := if runs then active.take Ts.length else [] }] }
  | rem + 1, level, roots, active, part, s => do
    let (tmp, res, n00) ← partialNodes runs Ts roots active level 3 0
    if !runs ∧ res = 0 then .ok s
    else if runs ∧ n00 = 0 then do
      let r ← fillDiff part c.top level s.r
      .ok { s with r := r }
    else if res = 2 then
      let ln ← children Nav.getLeftChild false level Ts roots
      partialANDK Ts c runs rem (level + 1) ln tmp part s
    else if res = 1 then
      let sh ← shlDiff c.top (level + 1)
      let rn ← children Nav.getRightChild false level Ts roots
      partialANDK Ts c runs rem (level + 1) rn tmp (part ||| sh) s
    else if res = 3 then
      let sh ← shlDiff c.top (level + 1)
      let ln ← children Nav.getLeftChild false level Ts roots
      let s ← partialANDK Ts c runs rem (level + 1) ln tmp part s
      partialANDK Ts c runs rem (level + 1) (succRoots ln) tmp (part ||| sh) s
    else .ok s

/-- The loop that fills the threads (src/intersection.cpp:349-355, src/fastTrieIntersection.cpp:372-378). -/
def fillThreadsK (Ts : List Nav) (c : Cfg) (runs : Bool) (cut nThreads total : Nat) :
    (todo : List Task) → (i used : Nat) → PSt → R (List Task × Nat × PSt)
  | [], _, used, s => .ok ([], used, s)
  | t :: todo, i, used, s =>
    if (nThreads + 2 ^ 32 - used) % 2 ^ 32 > 1 then do
      let s ← partialANDK Ts c runs 1 cut t.roots t.active t.part s
      fillThreadsK Ts c runs cut nThreads total todo (i + 1) ((total + s.tasks.length - (i + 1)) % 2 ^ 16) s
    else .ok (t :: todo, used, s)

/-- `Intersect` after the check of the heights (src/intersection.cpp:313-435, src/fastTrieIntersection.cpp:336-459). -/
def intersectBodyK (Ts : List Nav) (c : Cfg) (height : Nat) (runs parallel : Bool) (env : Env) : R (List Nat) := do
  let active := List.replicate 16 true
  let roots := List.replicate 16 (some 0)
  if env.hw = 0 then .error .conv
  let cut := Nat.log2 env.hw
  let nThreads := 2 ^ cut
  if parallel ∧ cut ≤ (height + 2 ^ 64 - 2) % 2 ^ 64 then
    let s ← partialANDK Ts c runs cut 0 roots active 0 { r := [], tasks := [] }
    if s.tasks.length = 0 then .ok s.r
    else
      let total := s.tasks.length % 2 ^ 16
      let (rest, used, s) ← fillThreadsK Ts c runs cut nThreads total (s.tasks.take total) 0 total
        { s with tasks := [] }
      let next := s.tasks ++ rest
      let levels := List.replicate s.tasks.length (cut + 1) ++ List.replicate rest.length cut
      if next.length = 0 then .ok s.r
      else
        let results ← parallelFor actPush env.sched1 used used
          (fun t => do
            let task ← vGet next t
            let level ← vGet levels t
            let out ← if c.stop < level then .error .fuel
                      else if runs then runsANDK Ts c (c.stop - level) level task.roots task.active task.part []
                      else ANDK Ts c (c.stop - level) level task.roots task.part []
            pure (out.map fun x => (t, x)))
          (List.replicate used [])
        gather env.sched2 s.r results used
  else if runs then runsANDK Ts c c.stop 0 roots active 0 []
  else ANDK Ts c c.stop 0 roots 0 []

/-- `Intersect(vector<binaryTrie*>&, runs, parallel)` (src/intersection.cpp:305-435). -/
def intersectK (Ts : List Nav) (runs parallel : Bool) (env : Env) : R (List Nat) :=
  match Ts with
  | [] => .error .oob
  | T0 :: _ =>
    if Ts.any (fun T => T.height ≠ T0.height) then .ok []
    else intersectBodyK Ts (flatCfg T0.height) T0.height runs parallel env

/-- `Intersect<rankType, wordType>` (src/fastTrieIntersection.cpp:328-459). -/
def fastIntersectK (lg : Nat) (Ts : List FNav) (runs parallel : Bool) (env : Env) : R (List Nat) :=
  match Ts with
  | [] => .error .oob
  | T0 :: _ =>
    if Ts.any (fun T => T.height ≠ T0.height) then .ok []
    else if T0.height = 0 then .error .uninit
    else intersectBodyK (Ts.map FNav.toNav) (fastCfg lg Ts T0.height) T0.height runs parallel env

end CBT
