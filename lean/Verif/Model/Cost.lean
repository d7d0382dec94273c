import Verif.Model.Intersect

/-!
# What `Intersect` reads of the tries

The functions of `Model/Intersect.lean` with counters of the calls `Ts[i]->getNode`, `Ts[i]->getLeftChild` or
`Ts[i]->getRightChild`, and `Ts[i]->getWord`. The counters are not in /repo; every call of these functions in src/intersection.cpp and
src/fastTrieIntersection.cpp is counted where it is made. In the parallel sections every thread has counters of its own, which are
added up.
-/

namespace CBT

structure Cost where
  nodes : Nat
  moves : Nat
  words : Nat
  deriving DecidableEq, Repr

def Cost.zero : Cost := ⟨0, 0, 0⟩
def Cost.add (a b : Cost) : Cost := ⟨a.nodes + b.nodes, a.moves + b.moves, a.words + b.words⟩
def Cost.node : Cost := ⟨1, 0, 0⟩
def Cost.move : Cost := ⟨0, 1, 0⟩
def Cost.word : Cost := ⟨0, 0, 1⟩

/-- `andNodes` (src/intersection.cpp:137-141, src/fastTrieIntersection.cpp:159-163). -/
def andNodesC : (Ts : List Nav) → (roots : List (Option Nat)) → (level res : Nat) → R (Nat × Cost)
  | [], _, _, res => .ok (res, .zero)
  | _ :: _, [], _, _ => .error .oob
  | T :: Ts, o :: os, level, res => do
    let id ← readRoot o
    let node ← T.getNode id level
    let (res, k) ← andNodesC Ts os level (res &&& node)
    .ok (res, Cost.node.add k)

/-- `children` (src/intersection.cpp:151-154, 160-163, 249-254, 264-269). -/
def childrenC (get : Nav → Nat → Nat → R Nat) (skip : Bool) (level : Nat) :
    (Ts : List Nav) → (roots : List (Option Nat)) → R (List (Option Nat) × Cost)
  | [], _ => .ok ([], .zero)
  | _ :: _, [] => .error .oob
  | T :: Ts, o :: os => do
    let (c, k) ← if skip then pure (none, Cost.zero) else do
              let id ← readRoot o
              let c ← get T id level
              pure (some c, Cost.move)
    let (cs, k') ← childrenC get skip level Ts os
    .ok (c :: cs, k.add k')

/-- `andWords` (src/fastTrieIntersection.cpp:143-146). -/
def andWordsC : (Ts : List FNav) → (roots : List (Option Nat)) → (w : Nat) → R (Nat × Cost)
  | [], _, w => .ok (w, .zero)
  | _ :: _, [], _ => .error .oob
  | T :: Ts, o :: os, w => do
    let id ← readRoot o
    let x ← T.getWord id
    let (w, k) ← andWordsC Ts os (w &&& x)
    .ok (w, Cost.word.add k)

/-- `andWordsActive` (src/fastTrieIntersection.cpp:46-51). -/
def andWordsActiveC : (Ts : List FNav) → (roots : List (Option Nat)) → (active : List Bool) → (w : Nat) → R (Nat × Cost)
  | [], _, _, w => .ok (w, .zero)
  | T :: Ts, o :: os, a :: as, w =>
    if a then do
      let id ← readRoot o
      let x ← T.getWord id
      let (w, k) ← andWordsActiveC Ts os as (w &&& x)
      .ok (w, Cost.word.add k)
    else andWordsActiveC Ts os as w
  | _ :: _, _, _, _ => .error .oob

/-- What distinguishes the two source files; see `Cfg`. -/
structure CfgC where
  cfg : Cfg
  base : List (Option Nat) → Nat → List Nat → R (List Nat × Cost)
  runsBase : List (Option Nat) → List Bool → Nat → List Nat → R (List Nat × Cost)

/-- The end condition of src/intersection.cpp:48-51, 131-134. -/
def flatCfgC (height : Nat) : CfgC where
  cfg := flatCfg height
  base := fun _ pref r => .ok (r ++ [pref], .zero)
  runsBase := fun _ _ pref r => .ok (r ++ [pref], .zero)

/-- The end condition of src/fastTrieIntersection.cpp:45-60, 141-155. -/
def fastCfgC (lg : Nat) (Ts : List FNav) (height : Nat) : CfgC where
  cfg := fastCfg lg Ts height
  base := fun roots pref r => do
    let (w, k) ← andWordsC Ts roots (2 ^ 2 ^ lg - 1)
    let r ← emitWord lg pref (2 ^ lg) w r
    .ok (r, k)
  runsBase := fun roots active pref r => do
    let (w, k) ← andWordsActiveC Ts roots active (2 ^ 2 ^ lg - 1)
    let r ← emitWord lg pref (2 ^ lg) w r
    .ok (r, k)

/-- `AND` (src/intersection.cpp:129-185, src/fastTrieIntersection.cpp:139-207). -/
def ANDc (Ts : List Nav) (c : CfgC) : (rem : Nat) → (level : Nat) → (roots : List (Option Nat)) → (pref : Nat) →
    (r : List Nat) → R (List Nat × Cost)
  | 0, _, roots, pref, r => c.base roots pref r
  | rem + 1, level, roots, pref, r => do
    let (res, k) ← andNodesC Ts roots level 3
    let skip := c.cfg.skipLast && decide (rem = 0)
    if res = 0 then .ok (r, k)
    else if res = 2 then
      let (ln, k1) ← childrenC Nav.getLeftChild skip level Ts roots
      let (r, k2) ← ANDc Ts c rem (level + 1) ln pref r
      .ok (r, (k.add k1).add k2)
    else if res = 1 then
      let s ← shl1 (c.cfg.top - level - 1)
      let (rn, k1) ← childrenC Nav.getRightChild skip level Ts roots
      let (r, k2) ← ANDc Ts c rem (level + 1) rn (pref ||| s) r
      .ok (r, (k.add k1).add k2)
    else if res = 3 then
      let s ← shl1 (c.cfg.top - level - 1)
      let (ln, k1) ← childrenC Nav.getLeftChild skip level Ts roots
      let (r, k2) ← ANDc Ts c rem (level + 1) ln pref r
      let (r, k3) ← ANDc Ts c rem (level + 1) (succRoots ln) (pref ||| s) r
      .ok (r, ((k.add k1).add k2).add k3)
    else .ok (r, k)

/-- `runsNodes` (src/intersection.cpp:54-69, src/fastTrieIntersection.cpp:63-78). -/
def runsNodesC : (Ts : List Nav) → (roots : List (Option Nat)) → (active : List Bool) → (level an orr : Nat) →
    R ((List Bool × Nat × Nat) × Cost)
  | [], _, _, _, an, orr => .ok (([], an, orr), .zero)
  | T :: Ts, o :: os, a :: as, level, an, orr =>
    if a then do
      let id ← readRoot o
      let node ← T.getNode id level
      if node ≠ 0 then
        let ((tmp, an, orr), k) ← runsNodesC Ts os as level (an &&& node) (orr ||| node)
        .ok ((true :: tmp, an, orr), Cost.node.add k)
      else
        let ((tmp, an, orr), k) ← runsNodesC Ts os as level an (orr ||| node)
        .ok ((false :: tmp, an, orr), Cost.node.add k)
    else do
      let ((tmp, an, orr), k) ← runsNodesC Ts os as level an orr
      .ok ((false :: tmp, an, orr), k)
  | _ :: _, _, _, _, _, _ => .error .oob

/-- `childrenActive` (src/intersection.cpp:90-93, 100-103, 113-119). -/
def childrenActiveC (get : Nav → Nat → Nat → R Nat) (skip : Bool) (level : Nat) :
    (Ts : List Nav) → (roots : List (Option Nat)) → (active : List Bool) → R (List (Option Nat) × Cost)
  | [], _, _ => .ok ([], .zero)
  | T :: Ts, o :: os, a :: as => do
    let (c, k) ← if a && !skip then do
              let id ← readRoot o
              let c ← get T id level
              pure (some c, Cost.move)
            else pure (none, Cost.zero)
    let (cs, k') ← childrenActiveC get skip level Ts os as
    .ok (c :: cs, k.add k')
  | _ :: _, _, _ => .error .oob

/-- `runsAND` (src/intersection.cpp:45-126, src/fastTrieIntersection.cpp:41-135). -/
def runsANDc (Ts : List Nav) (c : CfgC) : (rem : Nat) → (level : Nat) → (roots : List (Option Nat)) →
    (active : List Bool) → (pref : Nat) → (r : List Nat) → R (List Nat × Cost)
  | 0, _, roots, active, pref, r => c.runsBase roots active pref r
  | rem + 1, level, roots, active, pref, r => do
    let ((tmp, an, orr), k) ← runsNodesC Ts roots active level 3 0
    let skip := c.cfg.skipLast && decide (rem = 0)
    if an = 0 ∧ orr ≠ 0 then .ok (r, k)
    else if orr = 0 then do
      let r ← fillRange pref (c.cfg.top - level) r
      .ok (r, k)
    else if an = 2 then
      let (ln, k1) ← childrenActiveC Nav.getLeftChild skip level Ts roots tmp
      let (r, k2) ← runsANDc Ts c rem (level + 1) ln tmp pref r
      .ok (r, (k.add k1).add k2)
    else if an = 1 then
      let s ← shl1 (c.cfg.top - level - 1)
      let (rn, k1) ← childrenActiveC Nav.getRightChild skip level Ts roots tmp
      let (r, k2) ← runsANDc Ts c rem (level + 1) rn tmp (pref ||| s) r
      .ok (r, (k.add k1).add k2)
    else if an = 3 then
      let s ← shl1 (c.cfg.top - level - 1)
      let (ln, k1) ← childrenActiveC Nav.getLeftChild skip level Ts roots tmp
      let (r, k2) ← runsANDc Ts c rem (level + 1) ln tmp pref r
      let (r, k3) ← runsANDc Ts c rem (level + 1) (succRoots ln) tmp (pref ||| s) r
      .ok (r, ((k.add k1).add k2).add k3)
    else .ok (r, k)

/-- `partialNodes` (src/intersection.cpp:210-232, src/fastTrieIntersection.cpp:233-255). -/
def partialNodesC (runs : Bool) : (Ts : List Nav) → (roots : List (Option Nat)) → (active : List Bool) →
    (level res n00 : Nat) → R ((List Bool × Nat × Nat) × Cost)
  | [], _, _, _, res, n00 => .ok (([], res, n00), .zero)
  | _ :: _, [], _, _, _, _ => .error .oob
  | T :: Ts, o :: os, active, level, res, n00 =>
    if runs then
      match active with
      | [] => .error .oob
      | a :: as =>
        if a then do
          let id ← readRoot o
          let node ← T.getNode id level
          let keep := decide (node ≠ 0) || runs
          let ((tmp, res, n00), k) ← partialNodesC runs Ts os as level (if keep then res &&& node else res) (n00 ||| node)
          .ok ((keep :: tmp, res, n00), Cost.node.add k)
        else do
          let ((tmp, res, n00), k) ← partialNodesC runs Ts os as level res n00
          .ok ((false :: tmp, res, n00), k)
    else do
      let id ← readRoot o
      let node ← T.getNode id level
      let (x, k) ← partialNodesC runs Ts os active level (res &&& node) n00
      .ok (x, Cost.node.add k)

/-- `partialAND` (src/intersection.cpp:188-302, src/fastTrieIntersection.cpp:211-325). -/
def partialANDc (Ts : List Nav) (c : Cfg) (runs : Bool) : (rem : Nat) → (level : Nat) → (roots : List (Option Nat)) →
    (active : List Bool) → (part : Nat) → PSt → R (PSt × Cost)
  | 0, _, roots, active, part, s =>
    if roots.length < Ts.length ∨ runs = true ∧ active.length < Ts.length then .error .oob
    else
      .ok ({ s with tasks := s.tasks ++ [⟨part, roots.take Ts.length, if runs then active.take Ts.length else []⟩] }, .zero)
  | rem + 1, level, roots, active, part, s => do
    let ((tmp, res, n00), k) ← partialNodesC runs Ts roots active level 3 0
    if !runs ∧ res = 0 then .ok (s, k)
    else if runs ∧ n00 = 0 then do
      let r ← fillRange part (c.top - level) s.r
      .ok ({ s with r := r }, k)
    else if res = 2 then
      let (ln, k1) ← childrenC Nav.getLeftChild false level Ts roots
      let (s, k2) ← partialANDc Ts c runs rem (level + 1) ln tmp part s
      .ok (s, (k.add k1).add k2)
    else if res = 1 then
      let sh ← shl1 (c.top - level - 1)
      let (rn, k1) ← childrenC Nav.getRightChild false level Ts roots
      let (s, k2) ← partialANDc Ts c runs rem (level + 1) rn tmp (part ||| sh) s
      .ok (s, (k.add k1).add k2)
    else if res = 3 then
      let sh ← shl1 (c.top - level - 1)
      let (ln, k1) ← childrenC Nav.getLeftChild false level Ts roots
      let (s, k2) ← partialANDc Ts c runs rem (level + 1) ln tmp part s
      let (s, k3) ← partialANDc Ts c runs rem (level + 1) (succRoots ln) tmp (part ||| sh) s
      .ok (s, ((k.add k1).add k2).add k3)
    else .ok (s, k)

/-- `fillThreads` (src/intersection.cpp:349-355, src/fastTrieIntersection.cpp:372-378). -/
def fillThreadsC (Ts : List Nav) (c : Cfg) (runs : Bool) (cut nThreads total : Nat) :
    (todo : List Task) → (i used : Nat) → PSt → R ((List Task × Nat × PSt) × Cost)
  | [], _, used, s => .ok (([], used, s), .zero)
  | t :: todo, i, used, s =>
    if (nThreads + 2 ^ 32 - used) % 2 ^ 32 > 1 then do
      let (s, k) ← partialANDc Ts c runs 1 cut t.roots t.active t.part s
      let (x, k') ← fillThreadsC Ts c runs cut nThreads total todo (i + 1) ((total + s.tasks.length - (i + 1)) % 2 ^ 16) s
      .ok (x, k.add k')
    else .ok ((t :: todo, used, s), .zero)

/-- What thread `t` does (src/intersection.cpp:374-391, src/fastTrieIntersection.cpp:398-415). -/
def threadC (Ts : List Nav) (c : CfgC) (runs : Bool) (next : List Task) (levels : List Nat) (t : Nat) : R (List Nat × Cost) := do
  let task ← vGet next t
  let level ← vGet levels t
  if runs then runsANDc Ts c (c.cfg.stop - level) level task.roots task.active task.part []
  else ANDc Ts c (c.cfg.stop - level) level task.roots task.part []

/-- `Intersect` after the check of the heights (src/intersection.cpp:313-435, src/fastTrieIntersection.cpp:336-459). -/
def costBody (Ts : List Nav) (c : CfgC) (height : Nat) (runs parallel : Bool) (env : Env) : R (List Nat × Cost) := do
  let active := List.replicate 16 true
  let roots := List.replicate 16 (some 0)
  if env.hw = 0 then .error .conv
  let cut := Nat.log2 env.hw
  let nThreads := 2 ^ cut
  if parallel ∧ cut ≤ (height + 2 ^ 64 - 2) % 2 ^ 64 then
    let (s, k) ← partialANDc Ts c.cfg runs cut 0 roots active 0 { r := [], tasks := [] }
    if s.tasks.length = 0 then .ok (s.r, k)
    else
      let total := s.tasks.length % 2 ^ 16
      let ((rest, used, s), k') ← fillThreadsC Ts c.cfg runs cut nThreads total (s.tasks.take total) 0 total
        { s with tasks := [] }
      let next := s.tasks ++ rest
      let levels := List.replicate s.tasks.length (cut + 1) ++ List.replicate rest.length cut
      if next.length = 0 then .ok (s.r, k.add k')
      else
        let results ← parallelFor actPush env.sched1 used used
          (fun t => do
            let (out, _) ← threadC Ts c runs next levels t
            pure (out.map fun x => (t, x)))
          (List.replicate used [])
        let r ← gather env.sched2 s.r results used
        let ks ← (List.range used).mapM fun t => do
          let (_, k) ← threadC Ts c runs next levels t
          pure k
        .ok (r, (k.add k').add (ks.foldr Cost.add .zero))
  else if runs then runsANDc Ts c c.cfg.stop 0 roots active 0 []
  else ANDc Ts c c.cfg.stop 0 roots 0 []

/-- `Intersect(vector<binaryTrie*>&, runs, parallel)` (src/intersection.cpp:305-435). -/
def costIntersect (Ts : List Nav) (runs parallel : Bool) (env : Env) : R (List Nat × Cost) :=
  match Ts with
  | [] => .error .oob
  | T0 :: _ =>
    if Ts.any (fun T => T.height ≠ T0.height) then .ok ([], .zero)
    else costBody Ts (flatCfgC T0.height) T0.height runs parallel env

/-- `Intersect<rankType, wordType>` (src/fastTrieIntersection.cpp:328-459). -/
def costFastIntersect (lg : Nat) (Ts : List FNav) (runs parallel : Bool) (env : Env) : R (List Nat × Cost) :=
  match Ts with
  | [] => .error .oob
  | T0 :: _ =>
    if Ts.any (fun T => T.height ≠ T0.height) then .ok ([], .zero)
    else if T0.height = 0 then .error .uninit
    else costBody (Ts.map FNav.toNav) (fastCfgC lg Ts T0.height) T0.height runs parallel env

end CBT
