import Verif.Model.ToolsTries
import Verif.Model.Size

/-!
# What the builders print at the end

`build_tries` and `build_fastTries` with the totals they print: the number of lists, of elements, and the sum of the sizes, of which
`8 * size / elements` is printed as a `float` (not modelled). Without an output file name nothing is written, and the rest is the same.
-/

namespace CBT

/-- The totals (tools/build_tries.cpp:83-85, 185-186, tools/build_fastTries.cpp:79-81, 132-133). -/
structure BuildReport where
  nIl : Nat
  totalElements : Nat
  totalSize : Nat
  deriving DecidableEq, Repr

/-- `total_size += trie_bytes_size; total_elements += n; n_il++` (tools/build_tries.cpp:168-170, tools/build_fastTries.cpp:115-117). -/
def BuildReport.add (r : BuildReport) (n size : Nat) : BuildReport :=
  ⟨(r.nIl + 1) % 2 ^ 64, (r.totalElements + n) % 2 ^ 64, (r.totalSize + size) % 2 ^ 64⟩

/-- The second pass (tools/build_tries.cpp:87-181, tools/build_fastTries.cpp:83-128): `make i il` gives the bytes written for the `i`-th
accepted list and its `size_in_bytes`. -/
def reportLoop (minSize maxSize : Nat) (make : Nat → List Nat → R (Bytes × Nat)) :
    (fuel : Nat) → (s : Bytes) → (i : Nat) → BuildReport → R (Bytes × BuildReport)
  | 0, _, _, _ => .error .fuel
  | fuel + 1, s, i, r =>
    match readLE 4 s with
    | .error _ => .ok ([], r)
    | .ok (n, s) =>
      if accepts minSize maxSize n then do
        let (il, s) ← readInvList n s
        let (b, size) ← make i il
        let (bs, r) ← reportLoop minSize maxSize make fuel s (i + 1) (r.add n size)
        .ok (b ++ bs, r)
      else reportLoop minSize maxSize make fuel (skipList s n) i r

/-- `buildCollection` (tools/build_tries.cpp:50-188, tools/build_fastTries.cpp:45-135); `out` is whether there is an output file name. -/
def reportFile (out : Bool) (minSize maxSize : Nat) (hdr : Bytes) (make : (u : Nat) → Nat → List Nat → R (Bytes × Nat)) (s : Bytes) :
    R (Bytes × BuildReport) := do
  let (one, s1) ← readLE 4 s
  let (u, s2) ← readLE 4 s1
  let nSets ← countSets minSize maxSize (s2.length + 1) s2 0
  let (tries, r) ← reportLoop minSize maxSize (make u) (s2.length + 1) s2 0 ⟨0, 0, 0⟩
  .ok ((if out then hdr ++ leBytes 4 nSets ++ leBytes 4 one ++ leBytes 4 u else []) ++ tries, r)

/-- One flat trie (tools/build_tries.cpp:111-119, 133-142, 158-166). -/
def reportFlat (out : Bool) (B L : BvIO) (K : RankIO) (pad : Nat) (ltr runs : Bool) (u : Nat) (il : List Nat) : R (Bytes × Nat) := do
  let t ← flatCtor il u
  let t ← if runs then t.encodeRuns pad else .ok t
  .ok (if out then (t.serialize B L K ltr).1 else [], t.sizeInBytes B L K)

/-- One `binTrie` (tools/build_tries.cpp:102-110, 147-157). -/
def reportLevel (out : Bool) (B : BvIO) (K : RankIO) (pad : Nat) (runs : Bool) (u : Nat) (il : List Nat) : R (Bytes × Nat) := do
  let t ← levelCtor il u
  let t ← if runs then t.encodeRuns false pad else .ok t
  .ok (if out then (t.serialize B K).1 else [], t.sizeInBytes B K)

/-- One `binTrie_il` (tools/build_tries.cpp:123-132). `binTrie_il::size_in_bytes` (include/binTrie_il.hpp:159-174) counts what
`binTrie::size_in_bytes` counts. -/
def reportLevelIl (out : Bool) (B : BvIO) (K : RankIO) (pad : Nat) (runs : Bool) (u : Nat) (il : List Nat) : R (Bytes × Nat) := do
  let t ← levelCtor il u
  let t ← if runs then t.encodeRuns true pad else .ok t
  let (b, _) ← if out then t.serializeIl else .ok ([], 0)
  .ok (b, t.sizeInBytes B K)

/-- One trie of `build_tries` (tools/build_tries.cpp:101-167). -/
def reportTrie (out : Bool) (F : Formats) (pad : Nat) (ltr : Bool) (rank block : Nat) (runs levelwise : Bool) (u _i : Nat) (il : List Nat) :
    R (Bytes × Nat) :=
  if rank = 1 then
    if levelwise then reportLevelIl out (F.il (builtBlock block)) (F.rankIl (builtBlock block)) pad runs u il
    else reportFlat out (F.il (builtBlock block)) F.bv (F.rankIl (builtBlock block)) pad ltr runs u il
  else
    if levelwise then reportLevel out F.bv (F.rank rank) pad runs u il
    else reportFlat out F.bv F.bv (F.rank rank) pad ltr runs u il

/-- `build_tries`: what is written and the totals (tools/build_tries.cpp:30-190, 286-293). -/
def reportTries (out : Bool) (F : Formats) (pad : Nat) (ltr : Bool) (minSize maxSize rank block : Nat) (runs levelwise : Bool) (s : Bytes) :
    R (Bytes × BuildReport) :=
  reportFile out minSize maxSize (triesFileHeader rank block runs levelwise) (reportTrie out F pad ltr rank block runs levelwise) s

/-- One trie of `build_fastTries` (tools/build_fastTries.cpp:97-114). -/
def reportFastTrie (out : Bool) (B : BvIO) (K : RankIO) (lg pad : Nat) (junk : Nat → FastJunk) (runs : Bool) (u i : Nat) (il : List Nat) :
    R (Bytes × Nat) := do
  let t ← fastCtor lg (junk i) il u
  let t ← if runs then t.encodeRuns lg pad else .ok t
  .ok (if out then (t.serialize B K lg).1 else [], t.sizeInBytes B K lg)

/-- `build_fastTries`: what is written and the totals (tools/build_fastTries.cpp:24-136, 236-243); `none` when nothing is done. -/
def reportFast (out : Bool) (B : BvIO) (K : Nat → RankIO) (pad : Nat) (junk : Nat → FastJunk) (minSize maxSize rank : Nat)
    (runs levelwise : Bool) (wsize : Nat) (s : Bytes) : R (Option (Bytes × BuildReport)) :=
  match wordLg wsize with
  | none => .ok none
  | some lg => do
    let x ← reportFile out minSize maxSize (fastFileHeader rank runs levelwise wsize)
      (reportFastTrie out B (K (if rank = 0 then 0 else 2)) lg pad junk runs) s
    .ok (some x)

end CBT
