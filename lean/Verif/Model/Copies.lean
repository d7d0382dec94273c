import Verif.Model.Serialize

/-!
# Copies of tries

The tries have the copy constructors the compiler generates. A rank support holds a pointer to the bit vector it was made for, and
copying it copies the pointer (contract of sdsl): the rank support of a copy refers to the bit vector of the original. `target` is what
that vector contains now, `none` if it has been destroyed.
-/

namespace CBT

/-! ## Flat -/

/-- A copy of a flat trie (include/flatBinTrie.hpp:18-22, include/flatBinTrie_il.hpp:18-21). -/
structure FlatCopy (K : RankIO) where
  trie : FlatTrie
  counts : K.K
  target : Option BV

/-- `flatBinTrie c = t;` (include/flatBinTrie.hpp:17-26, include/flatBinTrie_il.hpp:16-25: no copy constructor of its own). -/
def FlatTrie.copy (K : RankIO) (t : FlatTrie) : FlatCopy K := ⟨t, K.of t.bTrie, some t.bTrie⟩

/-- The copy after the original has been destroyed. -/
def FlatCopy.orphan {K : RankIO} (c : FlatCopy K) : FlatCopy K := { c with target := none }

/-- The copy after the original has become `t` (include/flatBinTrie.hpp:354: `bTrie` is assigned to). -/
def FlatCopy.after {K : RankIO} (c : FlatCopy K) (t : FlatTrie) : FlatCopy K := { c with target := some t.bTrie }

/-- `b_rank(i)` of a copy. -/
def FlatCopy.rank {K : RankIO} (c : FlatCopy K) (i : Nat) : R Nat :=
  match c.target with
  | none => .error .null
  | some v => K.query c.counts v i

/-- The virtual interface of a copy (include/flatBinTrie.hpp:191-227, include/flatBinTrie_il.hpp:196-235). -/
def FlatCopy.nav {K : RankIO} (c : FlatCopy K) (pad : Nat) : Nav where
  height := c.trie.height
  getNode := c.trie.getNode pad
  getLeftChild id level := if c.trie.height ≤ level + 1 then .ok 0 else c.rank (2 * id + 1)
  getRightChild id level := if c.trie.height ≤ level + 1 then .ok 0 else c.rank (2 * id + 2)

/-- `decode` of a copy (include/flatBinTrie.hpp:446-458, include/flatBinTrie_il.hpp:457-471). -/
def FlatCopy.decode {K : RankIO} (c : FlatCopy K) (pad : Nat) (out : List Nat) : R (List Nat) :=
  if c.trie.runsEncoded then
    if c.trie.emptyTrie then .ok out else runsRecDecode (c.nav pad) c.trie.height out 0 0 0
  else recDecode (c.nav pad) c.trie.height out 0 0 0

/-! ## Level-wise -/

/-- A copy of a level-wise trie (include/binTrie.hpp:20-21, include/binTrie_il.hpp:19-20): one rank support for every level but the
last. -/
structure LevelCopy (K : RankIO) where
  trie : LevelTrie
  counts : List K.K
  target : Option (List BV)

/-- `binTrie c = t;` (include/binTrie.hpp:18-26, include/binTrie_il.hpp:17-24: no copy constructor of its own). -/
def LevelTrie.copy (K : RankIO) (t : LevelTrie) : LevelCopy K := ⟨t, t.bTrie.dropLast.map K.of, some t.bTrie⟩

/-- The copy after the original has been destroyed. -/
def LevelCopy.orphan {K : RankIO} (c : LevelCopy K) : LevelCopy K := { c with target := none }

/-- The copy after the original has become `t` by `encodeRuns` (include/binTrie.hpp:322, include/binTrie_il.hpp:306-307: the elements of
`bTrie` are assigned to in place, the number of levels being the same). -/
def LevelCopy.after {K : RankIO} (c : LevelCopy K) (t : LevelTrie) : LevelCopy K := { c with target := some t.bTrie }

/-- `bv_rank[level](i)` of a copy. -/
def LevelCopy.rank {K : RankIO} (c : LevelCopy K) (level i : Nat) : R Nat := do
  let k ← vGet c.counts level
  match c.target with
  | none => .error .null
  | some vs => do
    let v ← vGet vs level
    K.query k v i

/-- The virtual interface of a copy; `il` selects `binTrie_il` (include/binTrie.hpp:152-175, include/binTrie_il.hpp:133-156). -/
def LevelCopy.nav {K : RankIO} (c : LevelCopy K) (il : Bool) (pad : Nat) : Nav where
  height := c.trie.height
  getNode := c.trie.getNode pad
  getLeftChild id level := if c.trie.height ≤ level + 1 then .ok 0
    else if il then (do let k ← c.rank level (2 * id + 1); .ok ((k + 2 ^ 64 - 1) % 2 ^ 64)) else c.rank level (2 * id)
  getRightChild id level := if c.trie.height ≤ level + 1 then .ok 0
    else if il then (do let k ← c.rank level (2 * id + 1 + 1); .ok ((k + 2 ^ 64 - 1) % 2 ^ 64)) else c.rank level (2 * id + 1)

/-- `decode` of a copy (include/binTrie.hpp:401-415, include/binTrie_il.hpp:387-401). -/
def LevelCopy.decode {K : RankIO} (c : LevelCopy K) (il : Bool) (pad : Nat) (out : List Nat) : R (List Nat) :=
  if c.trie.runsEncoded then
    if c.trie.emptyTrie then .ok out else runsRecDecode (c.nav il pad) c.trie.heightWithRuns out 0 0 0
  else recDecode (c.nav il pad) c.trie.height out 0 0 0

/-! ## Fast -/

/-- A copy of a fast trie (include/fastBinaryTrie.hpp:21-28). -/
structure FastCopy (K : RankIO) where
  trie : FastTrie
  counts : K.K
  target : Option BV

/-- `fastBinaryTrie c = t;` (include/fastBinaryTrie.hpp:19-33: no copy constructor of its own). -/
def FastTrie.copy (K : RankIO) (t : FastTrie) : FastCopy K := ⟨t, K.of t.bTrie, some t.bTrie⟩

/-- The copy after the original has been destroyed. -/
def FastCopy.orphan {K : RankIO} (c : FastCopy K) : FastCopy K := { c with target := none }

/-- The copy after the original has become `t` (include/fastBinaryTrie.hpp:322-335: `bTrie` is assigned to). -/
def FastCopy.after {K : RankIO} (c : FastCopy K) (t : FastTrie) : FastCopy K := { c with target := some t.bTrie }

/-- `b_rank(i)` of a copy. -/
def FastCopy.rank {K : RankIO} (c : FastCopy K) (i : Nat) : R Nat :=
  match c.target with
  | none => .error .null
  | some v => K.query c.counts v i

/-- The interface of a copy (include/fastBinaryTrie.hpp:157-191). -/
def FastCopy.nav {K : RankIO} (c : FastCopy K) (pad : Nat) : FNav where
  height := c.trie.height
  getNode := c.trie.getNode pad
  getLeftChild id level := if c.trie.height ≤ level + 1 then .ok 0 else c.rank (2 * id + 1)
  getRightChild id level := if c.trie.height ≤ level + 1 then .ok 0 else c.rank (2 * id + 2)
  getWord := c.trie.getWord

/-- `decode` of a copy (include/fastBinaryTrie.hpp:415-427). -/
def FastCopy.decode {K : RankIO} (c : FastCopy K) (lg pad : Nat) (out : List Nat) : R (List Nat) :=
  if c.trie.height = 0 then .error .uninit
  else if c.trie.runsEncoded then
    if c.trie.emptyTrie then .ok out else fastRunsRecDecode lg c.trie.heightU (c.nav pad) (c.trie.height - 1) out 0 0 0
  else fastRecDecode lg c.trie.heightU (c.nav pad) (c.trie.height - 1) out 0 0 0

end CBT
