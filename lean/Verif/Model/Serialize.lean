import Verif.Model.Runs

/-!
# `serialize` and `load`

The streams are byte sequences. Multi-byte integers are written in the machine's order, taken to be little-endian.
-/

namespace CBT

/-- Contents of a `std::ostream`/`std::istream` (include/binaryTrie.hpp:25-26). -/
abbrev Bytes := List UInt8

/-- `out.write(reinterpret_cast<char*>(&x), k)` for a `k`-byte unsigned integer (e.g. include/flatBinTrie.hpp:243). -/
def leBytes : (k x : Nat) → Bytes
  | 0, _ => []
  | k + 1, x => UInt8.ofNat x :: leBytes k (x / 256)

/-- `in.read(reinterpret_cast<char*>(&x), k)` for a `k`-byte unsigned integer (e.g. include/flatBinTrie.hpp:260). The
code never looks at the state of the stream; a read past its end is `eof`. -/
def readLE : (k : Nat) → Bytes → R (Nat × Bytes)
  | 0, s => .ok (0, s)
  | _ + 1, [] => .error .eof
  | k + 1, b :: s => do
    let (x, s) ← readLE k s
    .ok (b.toNat + 256 * x, s)

/-- `out.write` of a `bool` (include/flatBinTrie.hpp:245-246). -/
def boolByte (b : Bool) : Bytes := [if b then 1 else 0]

/-- `in.read` into a `bool` (include/flatBinTrie.hpp:262-263): a byte that is neither 0 nor 1 is not a value of the type. -/
def readBool : Bytes → R (Bool × Bytes)
  | [] => .error .eof
  | b :: s => if b = 0 then .ok (false, s) else if b = 1 then .ok (true, s) else .error .conv

/-- Contract of `serialize`/`load` of `sdsl::bit_vector` and `sdsl::bit_vector_il` (used at include/flatBinTrie.hpp:249,
265-266; include/flatBinTrie_il.hpp:260, 276-277; include/binTrie.hpp:205, 226; include/fastBinaryTrie.hpp:213, 235). The
sdsl library is not part of /repo: its formats are parameters. `serialize` returns the number of bytes it wrote. -/
structure BvIO where
  write : BV → Bytes
  read : Bytes → R (BV × Bytes)
  roundTrip : ∀ (v : BV) (rest : Bytes), v.length < 2 ^ 64 → read (write v ++ rest) = .ok (v, rest)

/-- Contract of `serialize`/`load`/`operator()` of the sdsl rank supports (used at include/flatBinTrie.hpp:250, 267;
include/binTrie.hpp:208, 228; include/fastBinaryTrie.hpp:214, 236). `K` is the precomputed part; `load(in, &v)` attaches it to
`v`. Its answers are those of `rank1 v` if it was computed for `v`, otherwise anything. -/
structure RankIO where
  K : Type
  of : BV → K
  write : K → Bytes
  read : Bytes → R (K × Bytes)
  query : K → BV → Nat → R Nat
  roundTrip : ∀ (v : BV) (rest : Bytes), v.length < 2 ^ 64 → read (write (of v) ++ rest) = .ok (of v, rest)
  query_of : ∀ (v : BV) (i : Nat), query (of v) v i = rank1 v i

/-- The four header fields (include/flatBinTrie.hpp:243-246, include/flatBinTrie_il.hpp:254-257, include/binTrie.hpp:197-200,
include/fastBinaryTrie.hpp:207-210). `height` and `height_with_runs` are `uint16_t`. -/
def header (height heightWithRuns : Nat) (emptyTrie runsEncoded : Bool) : Bytes :=
  leBytes 2 height ++ leBytes 2 heightWithRuns ++ boolByte emptyTrie ++ boolByte runsEncoded

/-- The four header fields read back (include/flatBinTrie.hpp:260-263, include/flatBinTrie_il.hpp:271-274,
include/binTrie.hpp:219-222, include/binTrie_il.hpp:198-201, include/fastBinaryTrie.hpp:230-233). -/
def readHeader (s : Bytes) : R (Nat × Nat × Bool × Bool × Bytes) := do
  let (height, s) ← readLE 2 s
  let (heightWithRuns, s) ← readLE 2 s
  let (emptyTrie, s) ← readBool s
  let (runsEncoded, s) ← readBool s
  .ok (height, heightWithRuns, emptyTrie, runsEncoded, s)

/-! ## Flat -/

/-- `serialize` (include/flatBinTrie.hpp:241-256, include/flatBinTrie_il.hpp:252-267): the bytes and the returned value.
`bTrie.serialize(out) + lastLevel.serialize(out)` may be evaluated in either order; `ltr` says that the left operand comes
first. -/
def FlatTrie.serialize (B L : BvIO) (K : RankIO) (ltr : Bool) (t : FlatTrie) : Bytes × Nat :=
  let bvs := if ltr then B.write t.bTrie ++ L.write t.lastLevel else L.write t.lastLevel ++ B.write t.bTrie
  let rank := K.write (K.of t.bTrie)
  (header t.height t.heightWithRuns t.emptyTrie t.runsEncoded ++ bvs ++ rank,
    ((B.write t.bTrie).length + (L.write t.lastLevel).length + rank.length + 2 + 2 + 1 + 1) % 2 ^ 64)

/-- A flat trie together with the state of its rank support, attached to its own `bTrie`
(include/flatBinTrie.hpp:18-22, 267). -/
structure FlatObj (K : RankIO) where
  trie : FlatTrie
  counts : K.K

/-- `load` (include/flatBinTrie.hpp:259-268, include/flatBinTrie_il.hpp:270-279). -/
def flatLoad (B L : BvIO) (K : RankIO) (s : Bytes) : R (FlatObj K × Bytes) := do
  let (height, heightWithRuns, emptyTrie, runsEncoded, s) ← readHeader s
  let (bTrie, s) ← B.read s
  let (lastLevel, s) ← L.read s
  let (counts, s) ← K.read s
  .ok ({ trie := { height, heightWithRuns, runsEncoded, emptyTrie, bTrie, lastLevel }, counts }, s)

/-- The virtual interface of a loaded trie (include/flatBinTrie.hpp:191-227). -/
def FlatObj.nav {K : RankIO} (o : FlatObj K) (pad : Nat) : Nav where
  height := o.trie.height
  getNode := o.trie.getNode pad
  getLeftChild id level := if o.trie.height ≤ level + 1 then .ok 0 else K.query o.counts o.trie.bTrie (2 * id + 1)
  getRightChild id level := if o.trie.height ≤ level + 1 then .ok 0 else K.query o.counts o.trie.bTrie (2 * id + 2)

/-- `decode` of a loaded trie (include/flatBinTrie.hpp:446-458). -/
def FlatObj.decode {K : RankIO} (o : FlatObj K) (pad : Nat) (out : List Nat) : R (List Nat) :=
  if o.trie.runsEncoded then
    if o.trie.emptyTrie then .ok out else runsRecDecode (o.nav pad) o.trie.height out 0 0 0
  else recDecode (o.nav pad) o.trie.height out 0 0 0

/-! ## Level-wise -/

/-- `binTrie::serialize` (include/binTrie.hpp:194-214): header, every level, the rank support of every level but the last. -/
def LevelTrie.serialize (B : BvIO) (K : RankIO) (t : LevelTrie) : Bytes × Nat :=
  let h := t.bTrie.length % 2 ^ 16
  let bvs := (t.bTrie.take h).flatMap B.write
  let ranks := (t.bTrie.take (h - 1)).flatMap fun v => K.write (K.of v)
  (header h t.heightWithRuns t.emptyTrie t.runsEncoded ++ bvs ++ ranks, (bvs.length + ranks.length + 2 + 2 + 1 + 1) % 2 ^ 64)

/-- `binTrie_il::serialize` (include/binTrie_il.hpp:176-194): the first `write` gets `reinterpret_cast<char*>(height)`, the
height itself as an address, and reads two bytes there. -/
def LevelTrie.serializeIl (_t : LevelTrie) : R (Bytes × Nat) := .error .null

/-- What `binTrie_il::serialize` would write if its first `write` took the address of the height (include/binTrie_il.hpp:176-190): every
level, and after each but the last its rank support. Not what the code does. -/
def levelsIl (B : BvIO) (K : RankIO) : List BV → Bytes
  | [] => []
  | [v] => B.write v
  | v :: vs => B.write v ++ (K.write (K.of v) ++ levelsIl B K vs)

/-- A level-wise trie together with the state of its rank supports (include/binTrie.hpp:20-21, 228). -/
structure LevelObj (K : RankIO) where
  trie : LevelTrie
  counts : List K.K

/-- Load `n` objects one after the other (include/binTrie.hpp:225-228). -/
def readMany {α : Type} (read : Bytes → R (α × Bytes)) : (n : Nat) → Bytes → R (List α × Bytes)
  | 0, s => .ok ([], s)
  | n + 1, s => do
    let (x, s) ← read s
    let (xs, s) ← readMany read n s
    .ok (x :: xs, s)

/-- `binTrie::load` (include/binTrie.hpp:217-229). With height 0 the constructor of `vector<rankType>(height-1)` throws. -/
def levelLoad (B : BvIO) (K : RankIO) (s : Bytes) : R (LevelObj K × Bytes) := do
  let (height, heightWithRuns, emptyTrie, runsEncoded, s) ← readHeader s
  if height = 0 then .error .exc
  let (bTrie, s) ← readMany B.read height s
  let (counts, s) ← readMany K.read (height - 1) s
  .ok ({ trie := { heightWithRuns, runsEncoded, emptyTrie, bTrie }, counts }, s)

/-- One call of a rank support of a loaded `binTrie` (include/binTrie.hpp:166, 174). -/
def LevelObj.rank {K : RankIO} (o : LevelObj K) (level i : Nat) : R Nat := do
  let lv ← vGet o.trie.bTrie level
  let k ← vGet o.counts level
  K.query k lv i

/-- The virtual interface of a loaded `binTrie` (include/binTrie.hpp:152-175). -/
def LevelObj.nav {K : RankIO} (o : LevelObj K) (pad : Nat) : Nav where
  height := o.trie.height
  getNode := o.trie.getNode pad
  getLeftChild id level := if o.trie.height ≤ level + 1 then .ok 0 else o.rank level (2 * id)
  getRightChild id level := if o.trie.height ≤ level + 1 then .ok 0 else o.rank level (2 * id + 1)

/-- `decode` of a loaded `binTrie` (include/binTrie.hpp:401-415). -/
def LevelObj.decode {K : RankIO} (o : LevelObj K) (pad : Nat) (out : List Nat) : R (List Nat) :=
  if o.trie.runsEncoded then
    if o.trie.emptyTrie then .ok out else runsRecDecode (o.nav pad) o.trie.heightWithRuns out 0 0 0
  else recDecode (o.nav pad) o.trie.height out 0 0 0

/-- The levels and rank supports in the order of `binTrie_il::load` (include/binTrie_il.hpp:206-210), `n` levels to go. -/
def readLevelsIl (B : BvIO) (K : RankIO) : (n : Nat) → Bytes → R (List BV × Bytes)
  | 0, s => .ok ([], s)
  | n + 1, s => do
    let (v, s) ← B.read s
    let s ← if n ≠ 0 then (do let (_, s) ← K.read s; .ok s) else .ok s
    let (vs, s) ← readLevelsIl B K n s
    .ok (v :: vs, s)

/-- `binTrie_il::load` (include/binTrie_il.hpp:196-211). -/
def levelLoadIl (B : BvIO) (K : RankIO) (s : Bytes) : R (LevelTrie × Bytes) := do
  let (height, heightWithRuns, emptyTrie, runsEncoded, s) ← readHeader s
  if height = 0 then .error .exc
  let (bTrie, s) ← readLevelsIl B K height s
  .ok ({ heightWithRuns, runsEncoded, emptyTrie, bTrie }, s)

/-- The virtual interface of a loaded `binTrie_il` (include/binTrie_il.hpp:133-156, 209): `bv_rank[lvl].load(in)` is called
without a vector, so the rank support keeps a null pointer and using it is undefined. -/
def LevelTrie.navLoadedIl (t : LevelTrie) (pad : Nat) : Nav where
  height := t.height
  getNode := t.getNode pad
  getLeftChild _ level := if t.height ≤ level + 1 then .ok 0 else .error .null
  getRightChild _ level := if t.height ≤ level + 1 then .ok 0 else .error .null

/-- `decode` of a loaded `binTrie_il` (include/binTrie_il.hpp:387-401). -/
def LevelTrie.decodeLoadedIl (t : LevelTrie) (pad : Nat) (out : List Nat) : R (List Nat) :=
  if t.runsEncoded then
    if t.emptyTrie then .ok out else runsRecDecode (t.navLoadedIl pad) t.heightWithRuns out 0 0 0
  else recDecode (t.navLoadedIl pad) t.height out 0 0 0

/-! ## Fast -/

/-- `fastBinaryTrie::serialize` (include/fastBinaryTrie.hpp:206-225). The returned value counts `sizeof(lastLevel)`, the size
of a `std::vector` object (24 bytes with the usual ABI), for the last level. -/
def FastTrie.serialize (B : BvIO) (K : RankIO) (lg : Nat) (t : FastTrie) : Bytes × Nat :=
  let bv := B.write t.bTrie
  let rank := K.write (K.of t.bTrie)
  let words := t.lastLevel.flatMap (leBytes (2 ^ (lg - 3)))
  (header t.height t.heightWithRuns t.emptyTrie t.runsEncoded ++ bv ++ rank ++ leBytes 8 t.lastLevel.length ++ words,
    (bv.length + rank.length + 24 + 2 + 2 + 1 + 1) % 2 ^ 64)

/-- A fast trie together with the state of its rank support (include/fastBinaryTrie.hpp:21-28, 236). -/
structure FastObj (K : RankIO) where
  trie : FastTrie
  counts : K.K

/-- `fastBinaryTrie::load` into the object `t0` (include/fastBinaryTrie.hpp:229-247): the words are appended to the last level
`t0` already has. -/
def fastLoad (B : BvIO) (K : RankIO) (lg : Nat) (t0 : FastTrie) (s : Bytes) : R (FastObj K × Bytes) := do
  let (height, heightWithRuns, emptyTrie, runsEncoded, s) ← readHeader s
  let (bTrie, s) ← B.read s
  let (counts, s) ← K.read s
  let (n, s) ← readLE 8 s
  let (words, s) ← readMany (readLE (2 ^ (lg - 3))) n s
  .ok ({ trie := { height, heightWithRuns, heightU := (height + lg - 1) % 2 ^ 16, runsEncoded, emptyTrie, bTrie,
                   lastLevel := t0.lastLevel ++ words }, counts }, s)

/-- The interface of a loaded fast trie (include/fastBinaryTrie.hpp:157-191). -/
def FastObj.nav {K : RankIO} (o : FastObj K) (pad : Nat) : FNav where
  height := o.trie.height
  getNode := o.trie.getNode pad
  getLeftChild id level := if o.trie.height ≤ level + 1 then .ok 0 else K.query o.counts o.trie.bTrie (2 * id + 1)
  getRightChild id level := if o.trie.height ≤ level + 1 then .ok 0 else K.query o.counts o.trie.bTrie (2 * id + 2)
  getWord := o.trie.getWord

/-- `decode` of a loaded fast trie (include/fastBinaryTrie.hpp:415-427). -/
def FastObj.decode {K : RankIO} (o : FastObj K) (lg pad : Nat) (out : List Nat) : R (List Nat) :=
  if o.trie.height = 0 then .error .uninit
  else if o.trie.runsEncoded then
    if o.trie.emptyTrie then .ok out else fastRunsRecDecode lg o.trie.heightU (o.nav pad) (o.trie.height - 1) out 0 0 0
  else fastRecDecode lg o.trie.heightU (o.nav pad) (o.trie.height - 1) out 0 0 0

end CBT
