import Verif.Model.Serialize
import Verif.Model.Intersect

/-!
# Programs that use tries

A program keeps the tries it has made in an array, and builds, run-encodes, decodes, saves and loads, and intersects them in any order.
The objects are those of `Model/Serialize`: a trie with the state of its rank supports.
-/

namespace CBT

/-- `encodeRuns` of an object: `FlatTrie.encodeRuns` with the object's own rank support, which is then computed anew
(include/flatBinTrie.hpp:340-384, include/flatBinTrie_il.hpp:349-395). -/
def FlatObj.encodeRuns {K : RankIO} (o : FlatObj K) (pad : Nat) : R (FlatObj K) := do
  if o.trie.height = 0 then .error .uninit
  let (s, _) ← writeCompress (o.nav pad) (o.trie.height - 1)
    { ones := List.replicate o.trie.height [], pos := List.replicate o.trie.height 0 } 0 0
  let last := lastNonEmpty s.pos 0 0
  let p ← vGet s.pos last
  let (b, l) ← flatWriteLoop last ((s.ones.zip s.pos).take (last + 1)) 0 0
    (List.replicate (s.pos.sum - p) false) (List.replicate p false)
  .ok ⟨{ o.trie with heightWithRuns := last + 1, runsEncoded := true, bTrie := b, lastLevel := l }, K.of b⟩

/-- `serialize` of an object, operands evaluated from left to right (include/flatBinTrie.hpp:241-256, include/flatBinTrie_il.hpp:252-267). -/
def FlatObj.serialize (B L : BvIO) {K : RankIO} (o : FlatObj K) : Bytes :=
  header o.trie.height o.trie.heightWithRuns o.trie.emptyTrie o.trie.runsEncoded ++ (B.write o.trie.bTrie ++ L.write o.trie.lastLevel) ++
    K.write o.counts

/-- `binTrie::encodeRuns` of an object (include/binTrie.hpp:303-339). -/
def LevelObj.encodeRuns {K : RankIO} (o : LevelObj K) (pad : Nat) : R (LevelObj K) := do
  if o.trie.height = 0 then .error .oob
  let (s, _) ← writeCompress (o.nav pad) (o.trie.height - 1)
    { ones := List.replicate o.trie.height [], pos := List.replicate o.trie.height 0 } 0 0
  let last := lastNonEmpty s.pos 0 0
  let vs ← levelWriteLoop (s.ones.zip s.pos)
  .ok ⟨{ o.trie with heightWithRuns := last + 1, runsEncoded := true, bTrie := vs }, vs.dropLast.map K.of⟩

/-- `binTrie::serialize` of an object (include/binTrie.hpp:194-214). -/
def LevelObj.serialize (B : BvIO) {K : RankIO} (o : LevelObj K) : Bytes :=
  let h := o.trie.bTrie.length % 2 ^ 16
  header h o.trie.heightWithRuns o.trie.emptyTrie o.trie.runsEncoded ++ (o.trie.bTrie.take h).flatMap B.write ++
    (o.counts.take (h - 1)).flatMap K.write

/-- `fastBinaryTrie::encodeRuns` of an object (include/fastBinaryTrie.hpp:309-347). -/
def FastObj.encodeRuns {K : RankIO} (lg : Nat) (o : FastObj K) (pad : Nat) : R (FastObj K) := do
  if o.trie.height = 0 then .error .uninit
  let (s, nl, _) ← fastWriteCompress lg (o.nav pad) (o.trie.height - 1)
    { ones := List.replicate o.trie.height [], pos := List.replicate o.trie.height 0 } [] 0 0
  let ones := s.ones.take (o.trie.height - 1)
  let pos := s.pos.take (o.trie.height - 1)
  let b ← fastWriteLoop (ones.zip pos) 0 (List.replicate pos.sum false)
  .ok ⟨{ o.trie with heightWithRuns := lastNonEmpty pos 0 0 + 1, runsEncoded := true, bTrie := b, lastLevel := nl }, K.of b⟩

/-- `fastBinaryTrie::serialize` of an object (include/fastBinaryTrie.hpp:206-225). -/
def FastObj.serialize (B : BvIO) {K : RankIO} (lg : Nat) (o : FastObj K) : Bytes :=
  header o.trie.height o.trie.heightWithRuns o.trie.emptyTrie o.trie.runsEncoded ++ B.write o.trie.bTrie ++ K.write o.counts ++
    leBytes 8 o.trie.lastLevel.length ++ o.trie.lastLevel.flatMap (leBytes (2 ^ (lg - 3)))

/-! ## Tries derived from `binaryTrie` -/

/-- The formats of `sdsl` for one kind of bit vector and rank support. -/
structure ObjFormats where
  bv : BvIO
  last : BvIO
  rank : RankIO

/-- The classes derived from `binaryTrie`: `flatBinTrie`, `flatBinTrie_il`, `binTrie`, `binTrie_il`. -/
inductive Kind
  | flat (il : Bool)
  | level (il : Bool)
deriving DecidableEq

/-- What a program does with tries; `i` is the position in the array of tries. -/
inductive Op
  /-- `ts.push_back(new flatBinTrie(S, u))`, or of another class (include/flatBinTrie.hpp:28, include/flatBinTrie_il.hpp:27,
  include/binTrie.hpp:28, include/binTrie_il.hpp:31). -/
  | build (k : Kind) (S : List Nat) (u : Nat)
  /-- `ts[i]->encodeRuns()` (include/binaryTrie.hpp:27). -/
  | encode (i : Nat)
  /-- `ts[i]->decode(out)`: prints `out` afterwards. -/
  | decode (i : Nat) (out : List Nat)
  /-- `ts[i]->serialize(file)`, then `load` of the file into a new object, which is appended. -/
  | reload (i : Nat)
  /-- Prints `Intersect({ts[i] for i in is}, runs, parallel)` (src/intersection.cpp:305-435). -/
  | intersect (is : List Nat) (runs parallel : Bool) (env : Env)

/-- An object of one of the four classes. A `binTrie_il` keeps its rank supports; it cannot be loaded. -/
inductive Obj (F : Bool → ObjFormats)
  | flat (il : Bool) (o : FlatObj (F il).rank)
  | level (o : LevelObj (F false).rank)
  | levelIl (t : LevelTrie)

section
variable {F : Bool → ObjFormats}

/-- The virtual interface (include/binaryTrie.hpp:12-29). -/
def Obj.nav (pad : Nat) : Obj F → Nav
  | .flat _ o => o.nav pad
  | .level o => o.nav pad
  | .levelIl t => t.nav true pad

/-- `decode` (include/flatBinTrie.hpp:446-458, include/flatBinTrie_il.hpp:457-469, include/binTrie.hpp:401-415, include/binTrie_il.hpp:387-401). -/
def Obj.decode (pad : Nat) (out : List Nat) : Obj F → R (List Nat)
  | .flat _ o => o.decode pad out
  | .level o => o.decode pad out
  | .levelIl t => t.decode true pad out

/-- `encodeRuns` (include/flatBinTrie.hpp:340-384, include/flatBinTrie_il.hpp:349-395, include/binTrie.hpp:303-339,
include/binTrie_il.hpp:285-325). -/
def Obj.encodeRuns (pad : Nat) : Obj F → R (Obj F)
  | .flat il o => do let o ← o.encodeRuns pad; .ok (.flat il o)
  | .level o => do let o ← o.encodeRuns pad; .ok (.level o)
  | .levelIl t => do let t ← t.encodeRuns true pad; .ok (.levelIl t)

/-- The constructors (include/flatBinTrie.hpp:28-141, include/flatBinTrie_il.hpp:27-143, include/binTrie.hpp:28-128,
include/binTrie_il.hpp:31-124). -/
def Obj.build (F : Bool → ObjFormats) (S : List Nat) (u : Nat) : Kind → R (Obj F)
  | .flat il => do let t ← flatCtor S u; .ok (.flat il ⟨t, (F il).rank.of t.bTrie⟩)
  | .level false => do let t ← levelCtor S u; .ok (.level ⟨t, t.bTrie.dropLast.map (F false).rank.of⟩)
  | .level true => do let t ← levelCtor S u; .ok (.levelIl t)

/-- `serialize` and `load` (include/flatBinTrie.hpp:241-268, include/binTrie.hpp:194-229). Of a `binTrie_il`, `serialize` is undefined
(include/binTrie_il.hpp:175-192). -/
def Obj.reload : Obj F → R (Obj F)
  | .flat il o => do
    let (o, _) ← flatLoad (F il).bv (F il).last (F il).rank (o.serialize (F il).bv (F il).last)
    .ok (.flat il o)
  | .level o => do
    let (o, _) ← levelLoad (F false).bv (F false).rank (o.serialize (F false).bv)
    .ok (.level o)
  | .levelIl t => do
    let _ ← t.serializeIl
    .error .null

/-- The tries with the given positions. -/
def select {α : Type} (os : List α) : List Nat → R (List α)
  | [] => .ok []
  | i :: is => do
    let o ← vGet os i
    let os' ← select os is
    .ok (o :: os')

/-- Run the program; the result is what it prints. -/
def exec (F : Bool → ObjFormats) (pad : Nat) : List (Obj F) → List Op → R (List (List Nat))
  | _, [] => .ok []
  | os, .build k S u :: ops => do
    let o ← Obj.build F S u k
    exec F pad (os ++ [o]) ops
  | os, .encode i :: ops => do
    let o ← vGet os i
    let o ← o.encodeRuns pad
    exec F pad (os.set i o) ops
  | os, .decode i out :: ops => do
    let o ← vGet os i
    let r ← o.decode pad out
    let rs ← exec F pad os ops
    .ok (r :: rs)
  | os, .reload i :: ops => do
    let o ← vGet os i
    let o ← o.reload
    exec F pad (os ++ [o]) ops
  | os, .intersect is runs parallel env :: ops => do
    let Ts ← select os is
    let r ← intersect (Ts.map (Obj.nav pad)) runs parallel env
    let rs ← exec F pad os ops
    .ok (r :: rs)

end

/-! ## Fast tries -/

/-- What a program does with fast tries of one word size and rank type. `junk`: the members that the constructor leaves unwritten. -/
inductive FastOp
  /-- `new fastBinaryTrie(S, u)` (include/fastBinaryTrie.hpp:34-148). -/
  | build (junk : FastJunk) (S : List Nat) (u : Nat)
  | encode (i : Nat)
  | decode (i : Nat) (out : List Nat)
  /-- `load` into a default-constructed object (include/fastBinaryTrie.hpp:31, 227-247). -/
  | reload (junk : FastJunk) (i : Nat)
  /-- `Intersect` (src/fastTrieIntersection.cpp:328-459). -/
  | intersect (is : List Nat) (runs parallel : Bool) (env : Env)

/-- Run the program; the result is what it prints (include/fastBinaryTrie.hpp:34-148, 206-247, 309-347, 415-427,
src/fastTrieIntersection.cpp:328-459). -/
def fastExec (B : BvIO) (K : RankIO) (lg pad : Nat) : List (FastObj K) → List FastOp → R (List (List Nat))
  | _, [] => .ok []
  | os, .build junk S u :: ops => do
    let t ← fastCtor lg junk S u
    fastExec B K lg pad (os ++ [⟨t, K.of t.bTrie⟩]) ops
  | os, .encode i :: ops => do
    let o ← vGet os i
    let o ← o.encodeRuns lg pad
    fastExec B K lg pad (os.set i o) ops
  | os, .decode i out :: ops => do
    let o ← vGet os i
    let r ← o.decode lg pad out
    let rs ← fastExec B K lg pad os ops
    .ok (r :: rs)
  | os, .reload junk i :: ops => do
    let o ← vGet os i
    let (o, _) ← fastLoad B K lg (fastDefault junk) (o.serialize B lg)
    fastExec B K lg pad (os ++ [o]) ops
  | os, .intersect is runs parallel env :: ops => do
    let Ts ← select os is
    let r ← fastIntersect lg (Ts.map fun o => o.nav pad) runs parallel env
    let rs ← fastExec B K lg pad os ops
    .ok (r :: rs)

end CBT
