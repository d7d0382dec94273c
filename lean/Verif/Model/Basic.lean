/-!
# Common vocabulary of the model

Undefined behaviour is a distinct outcome of every modelled function.
-/

namespace CBT

/-- The ways in which the modelled C++ code can leave the defined world.
Not a definition of /repo: it is the error type of the model. -/
inductive UB where
  /-- index outside a `std::vector`, an `sdsl` bit vector or a fixed-size C array -/
  | oob
  /-- an indeterminate (never written) value is read and used -/
  | uninit
  /-- double-to-integer conversion of a value outside the target range -/
  | conv
  /-- shift by 64 or more -/
  | shift
  /-- use of an invalid pointer -/
  | null
  /-- a loop did not finish within the fuel given to the model -/
  | fuel
  /-- the stream ended or failed before the requested bytes were read -/
  | eof
  /-- an exception leaves the function -/
  | exc
  deriving DecidableEq, Repr

/-- Outcome of a modelled C++ function. -/
abbrev R (α : Type) := Except UB α

/-- `sdsl::bit_vector` (include/flatBinTrie.hpp:20-21, include/binTrie.hpp:20,
include/fastBinaryTrie.hpp:26): a finite sequence of bits. `sdsl::bit_vector_il`
(include/flatBinTrie_il.hpp:19, include/binTrie_il.hpp:19) stores the same sequence. -/
abbrev BV := List Bool

/-- `v[i]` on a bit vector (e.g. include/flatBinTrie.hpp:198). Reading at or past the end is outside the
library's contract; `pad` is the number of zero bits that happen to be readable after the vector. -/
def bvGet (pad : Nat) (v : BV) (i : Nat) : R Bool :=
  match v[i]? with
  | some b => .ok b
  | none => if i < v.length + pad then .ok false else .error .oob

/-- `v[i] = 1` on a bit vector (e.g. include/flatBinTrie.hpp:90). -/
def bvSet (v : BV) (i : Nat) : R BV :=
  if i < v.length then .ok (v.set i true) else .error .oob

/-- `v.resize(n)` on a bit vector (include/flatBinTrie.hpp:138-139): truncates, or extends with zeros. -/
def bvResize (v : BV) (n : Nat) : BV := v.take n ++ List.replicate (n - v.length) false

/-- `rank(i)` of an sdsl rank support over `v` (e.g. include/flatBinTrie.hpp:213): ones among the first `i` bits.
The three rank supports are external code; this is their contract. -/
def rank1 (v : BV) (i : Nat) : R Nat :=
  if i ≤ v.length then .ok ((v.take i).count true) else .error .oob

/-- `(b0 << 1) | b1` (include/flatBinTrie.hpp:198, include/binTrie.hpp:153, include/fastBinaryTrie.hpp:164). -/
def node2 (b0 b1 : Bool) : Nat := (b0.toNat <<< 1) ||| b1.toNat

/-- `1ULL << k` / `(uint64_t)1 << k` (e.g. include/flatBinTrie.hpp:405). -/
def shl1 (k : Nat) : R Nat := if k < 64 then .ok (1 <<< k) else .error .shift

/-- `set[i]` on a `std::vector<uint64_t>` (e.g. include/flatBinTrie.hpp:69). -/
def vGet {α : Type} (v : List α) (i : Nat) : R α :=
  match v[i]? with
  | some x => .ok x
  | none => .error .oob

/-- `floor(log2(u - 1)) + 1` converted to `uint16_t` (include/flatBinTrie.hpp:32, include/binTrie.hpp:30,
include/fastBinaryTrie.hpp:38). For `u = 1` the value is minus infinity and for `u = 0` the argument wraps to
2^64 - 1 and the following `2 * (pow(2, 65) - 1)` does not fit; both are conversions out of range.
Simplification: the double computation is taken to be exact (it is for `u <= 2^48`). -/
def heightOf (u : Nat) : R Nat :=
  if u ≤ 1 then .error .conv else .ok (Nat.log2 (u - 1) + 1)

/-- `uint64_t max_nodes = 2 * (pow(2, height) - 1)` (include/flatBinTrie.hpp:35, include/fastBinaryTrie.hpp:40):
the double does not fit a `uint64_t` from height 63 on. -/
def maxNodes (h : Nat) : R Nat :=
  if h ≤ 62 then .ok (2 * (2 ^ h - 1)) else .error .conv

/-- The part of the class interface used by decoding and intersecting: the virtual methods of
include/binaryTrie.hpp:20-23. -/
structure Nav where
  height : Nat
  getNode : (nodeId level : Nat) → R Nat
  getLeftChild : (nodeId level : Nat) → R Nat
  getRightChild : (nodeId level : Nat) → R Nat

/-- The scan of the constructors over `set[l..r]` (include/flatBinTrie.hpp:68-82, include/binTrie.hpp:64-78,
include/fastBinaryTrie.hpp:81-95), from index `i` on, `m = r + 1 - i` indices remaining, `left` elements seen so
far with bit `sh = j - 1` equal to 0. Returns the number of left elements and the index of the first element with
the bit set, if any: `left_elements` is the first component, `right_elements = r - i + 1`, `rl = i`, `rr = r`,
`ll = l`, `lr = l + left_elements - 1`. -/
def scan (set : List Nat) (sh : Nat) : (m i left : Nat) → R (Nat × Option Nat)
  | 0, _, left => .ok (left, none)
  | m + 1, i, left => do
    let x ← vGet set i
    if (x >>> sh) &&& 1 = 1 then .ok (left, some i)
    else scan set sh m (i + 1) (left + 1)

end CBT
