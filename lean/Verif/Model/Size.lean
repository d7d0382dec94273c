import Verif.Model.Serialize

/-!
# `size_in_bytes`

`sdsl::size_in_bytes(x)` is the number of bytes `x.serialize` writes. Sums are `uint64_t`.
-/

namespace CBT

/-- `flatBinTrie::size_in_bytes`, `flatBinTrie_il::size_in_bytes` (include/flatBinTrie.hpp:230-239, include/flatBinTrie_il.hpp:238-247). -/
def FlatTrie.sizeInBytes (B L : BvIO) (K : RankIO) (t : FlatTrie) : Nat :=
  ((B.write t.bTrie).length + (K.write (K.of t.bTrie)).length + (L.write t.lastLevel).length + 2 + 2) % 2 ^ 64

/-- `binTrie::size_in_bytes` (include/binTrie.hpp:178-191); `getHeight` is the `uint16_t` number of levels. -/
def LevelTrie.sizeInBytes (B : BvIO) (K : RankIO) (t : LevelTrie) : Nat :=
  let h := t.bTrie.length % 2 ^ 16
  ((((t.bTrie.take h).map fun v => (B.write v).length).sum + ((t.bTrie.take (h - 1)).map fun v => (K.write (K.of v)).length).sum) +
    2 + 2) % 2 ^ 64

/-- `fastBinaryTrie::size_in_bytes` (include/fastBinaryTrie.hpp:194-204): `sizeof` of a `std::vector` is 24. -/
def FastTrie.sizeInBytes (B : BvIO) (K : RankIO) (lg : Nat) (t : FastTrie) : Nat :=
  ((B.write t.bTrie).length + (K.write (K.of t.bTrie)).length + (24 + 2 ^ (lg - 3) * t.lastLevel.length) + 2 + 2) % 2 ^ 64

end CBT
